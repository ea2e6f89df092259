import Verif.Sync.SharedMutexProps

/-! # C133: programs that lock several shared mutexes

Any number of coroutines that execute programs of `lock()`, `unlock()`, `try_lock()`, `lock_shared()`, `unlock_shared()` and `try_lock_shared()` calls of any number of `co_shared_mutex` objects.
Each is the machine of `Verif/Sync/SharedMutex.lean` (source/cocpp/sync/co_shared_mutex.cpp:15-218), with its spinlock, owners, queue and sleep flags, and with the wake-up that goes wrong when a
reader is at the head of a queue that has a writer in it (C13).

Left out: what the coroutines do between the calls. -/

namespace Verif.RwOrdered
open RwSpec

/-- The program of a coroutine: which calls it is still going to make, for writing (`Mode.unique`) or for reading (`Mode.shared`); it decides by the result of `try_lock()` and
`try_lock_shared()` how to go on. (Programs of the user; the calls are co_shared_mutex.cpp:15-183.) -/
inductive Prog
  | done
  | lock (w : Mode) (m : Nat) (p : Prog)
  | unlock (w : Mode) (m : Nat) (p : Prog)
  | try (w : Mode) (m : Nat) (y n : Prog)
  deriving DecidableEq, Repr

/-- The discipline: lock, in either mode, only a mutex behind all mutexes one has; try any that one does not have; unlock what one has, as one has it; in the end have none. `H`: the mutexes one
has. (A condition on programs of the user.) (Concerns co_shared_mutex.cpp:15-218.) -/
def Prog.ordered (H : Nat → Option Mode) : Prog → Prop
  | .done => ∀ m, H m = none
  | .lock w m p => (∀ k, H k ≠ none → k < m) ∧ p.ordered (upd H m (some w))
  | .unlock w m p => H m = some w ∧ p.ordered (upd H m none)
  | .try w m y n => H m = none ∧ y.ordered (upd H m (some w)) ∧ n.ordered H

/-- The mutexes, the rest of each program (its first call included while the coroutine is inside it), and the mutex in whose call each coroutine is. (co_shared_mutex.h:30-33.) -/
structure State where
  mu : Nat → SharedMutex.St
  prog : Tid → Prog
  cur : Tid → Option Nat

/-- New mutexes (co_shared_mutex.h:30-33), everybody at the beginning. -/
def State.init (p : Tid → Prog) : State := ⟨fun _ => SharedMutex.St.init, p, fun _ => none⟩

/-- The rest of the program when the first call has returned; `got`: with the mutex. (co_shared_mutex.cpp:70-82, 155-167.) -/
def Prog.rest (got : Bool) : Prog → Prog
  | .done => .done
  | .lock _ _ p => p
  | .unlock _ _ p => p
  | .try _ _ y n => if got then y else n

/-- The mutex and the beginning of the first call of a program. (co_shared_mutex.cpp:15-183.) -/
def Prog.first (t : Tid) : Prog → Option (Nat × SharedMutex.Act)
  | .done => none
  | .lock w m _ => some (m, .callLock w t)
  | .unlock w m _ => some (m, .callUnlock w t)
  | .try w m _ _ => some (m, .callTry w t)

/-- Did the call get the mutex? (co_shared_mutex.cpp:79-81, 164-166.) -/
def isAcq : Ev → Bool
  | .acq _ _ => true
  | _ => false

/-- One step of coroutine `a.1`: it begins its next call, or makes the next step inside the call (co_shared_mutex.cpp:15-218, as in `SharedMutex.step`); `a.2` is what the clock says. -/
def step (s : State) (a : Tid × Bool) : Option (State × List (Nat × Ev)) :=
  match s.cur a.1 with
  | none =>
    match (s.prog a.1).first a.1 with
    | none => none
    | some (m, c) =>
      match SharedMutex.step (s.mu m) c with
      | none => none
      | some (x, es) => some (⟨upd s.mu m x, s.prog, upd s.cur a.1 (some m)⟩, es.map ((m, ·)))
  | some m =>
    match SharedMutex.step (s.mu m) (.run a.1 a.2) with
    | none => none
    | some (x, es) =>
      if x.pc a.1 = .out then
        some (⟨upd s.mu m x, upd s.prog a.1 ((s.prog a.1).rest (es.any isAcq)), upd s.cur a.1 none⟩, es.map ((m, ·)))
      else some (⟨upd s.mu m x, s.prog, s.cur⟩, es.map ((m, ·)))

/-- Inside `lock()` (co_shared_mutex.cpp:15-68) or `lock_shared()` (co_shared_mutex.cpp:100-153). -/
def isLk (w : Mode) : SharedMutex.Pc → Bool
  | .lkAcq m | .lkFast m | .lkSpin m | .lkYield m | .lkReacq m | .lkCheck m | .lkLoop m | .lkSleep m | .lkParked m | .lkReacq2 m | .lkRet m => decide (m = w)
  | _ => false

/-- Inside `try_lock()` (co_shared_mutex.cpp:70-82) or `try_lock_shared()` (co_shared_mutex.cpp:155-167). -/
def isTl (w : Mode) : SharedMutex.Pc → Bool
  | .tlAcq m | .tlTest m | .tlRet m _ => decide (m = w)
  | _ => false

/-- Inside an `unlock()` (co_shared_mutex.cpp:84-98) or `unlock_shared()` (co_shared_mutex.cpp:169-183) of a mutex the caller had in this mode. -/
def isUl (w : Mode) : SharedMutex.Pc → Bool
  | .ulAcq m true | .ulTest m true | .ulRet m true => decide (m = w)
  | _ => false

/-- The next step of the coroutine is a wake-up that goes wrong (co_shared_mutex.cpp:185-218): it gives a shared mutex free while a reader is first in the queue and a writer is in it. -/
def Mixed (s : State) (a : Tid × Bool) : Prop := ∃ m, s.cur a.1 = some m ∧ SharedMutex.MixedWake (s.mu m) (.run a.1 a.2)

/-- No wake-up of this execution goes wrong. (A condition on executions, co_shared_mutex.cpp:185-218.) -/
def Clean (s0 : State) (as : List (Tid × Bool)) : Prop :=
  ∀ pre a post s1 e1, as = pre ++ a :: post → runs step s0 pre = some (s1, e1) → ¬ Mixed s1 a

theorem Clean.tail {s0 s1 : State} {a : Tid × Bool} {as : List (Tid × Bool)} {e1 : List (Nat × Ev)} (h : Clean s0 (a :: as)) (h1 : step s0 a = some (s1, e1)) : Clean s1 as :=
  fun pre b post s2 e2 he hp => h (a :: pre) b post s2 (e1 ++ e2) (by simp [he]) (by simp [runs, h1, hp])

theorem Clean.head {s0 : State} {a : Tid × Bool} {as : List (Tid × Bool)} (h : Clean s0 (a :: as)) : ¬ Mixed s0 a := h [] a as s0 [] rfl rfl

/-! ## One mutex -/

theorem wake_same (x : SharedMutex.St) : x.wake.hold = x.hold ∧ x.wake.pc = x.pc := by
  unfold SharedMutex.St.wake; (repeat' split) <;> exact ⟨rfl, rfl⟩

theorem run_other {x x' : SharedMutex.St} {t u : Tid} {b : Bool} {es : List Ev} (h : SharedMutex.step x (.run t b) = some (x', es)) (hu : u ≠ t) :
    x'.pc u = x.pc u ∧ x'.hold u = x.hold u := by
  simp only [SharedMutex.step, SharedMutex.runStep] at h
  cases hp : x.pc t <;> simp only [hp, SharedMutex.St.acquire, SharedMutex.St.goto, SharedMutex.St.take] at h <;> (repeat' split at h) <;> cases h
  all_goals first | simp [hu, wake_same] | grind [upd_apply]

theorem run_lk {x x' : SharedMutex.St} {t : Tid} {b : Bool} {es : List Ev} {w : Mode} (h : SharedMutex.step x (.run t b) = some (x', es))
    (hp : isLk w (x.pc t) = true) :
    (isLk w (x'.pc t) = true ∧ x'.hold = x.hold ∧ es = []) ∨ (x'.pc t = .out ∧ x'.hold = upd x.hold t (some w) ∧ es = [.acq w t]) := by
  simp only [SharedMutex.step, SharedMutex.runStep] at h
  cases hq : x.pc t <;> simp only [hq, isLk, Bool.false_eq_true, decide_eq_true_eq] at hp <;> subst hp <;>
    simp only [hq, SharedMutex.St.acquire, SharedMutex.St.goto, SharedMutex.St.take] at h <;> (repeat' split at h) <;> cases h
  all_goals simp [isLk]

theorem run_tl {x x' : SharedMutex.St} {t : Tid} {b : Bool} {es : List Ev} {w : Mode} (h : SharedMutex.step x (.run t b) = some (x', es))
    (hp : isTl w (x.pc t) = true) :
    (isTl w (x'.pc t) = true ∧ x'.hold = x.hold ∧ es = []) ∨ (x'.pc t = .out ∧ x'.hold = upd x.hold t (some w) ∧ es = [.acq w t]) ∨
    (x'.pc t = .out ∧ x'.hold = x.hold ∧ es = [.tryFail w t]) := by
  simp only [SharedMutex.step, SharedMutex.runStep] at h
  cases hq : x.pc t <;> simp only [hq, isTl, Bool.false_eq_true, decide_eq_true_eq] at hp <;> subst hp <;>
    simp only [hq, SharedMutex.St.acquire, SharedMutex.St.goto, SharedMutex.St.take] at h <;> (repeat' split at h) <;> cases h
  all_goals first | simp [isTl] | (rename_i c; cases c <;> simp [isTl])

theorem run_ul {x x' : SharedMutex.St} {t : Tid} {b : Bool} {es : List Ev} {w : Mode} (hi : SharedMutex.Inv x) (h : SharedMutex.step x (.run t b) = some (x', es))
    (hp : isUl w (x.pc t) = true) :
    (isUl w (x'.pc t) = true ∧ x'.hold = x.hold ∧ es = []) ∨ (x'.pc t = .out ∧ x'.hold = x.hold ∧ es = [.unlockRet w t true]) := by
  have hl := hi.loc t
  simp only [SharedMutex.step, SharedMutex.runStep] at h
  cases hq : x.pc t with
  | ulAcq m c =>
    cases c <;> simp only [hq, isUl, Bool.false_eq_true, decide_eq_true_eq] at hp
    subst hp
    simp only [hq, SharedMutex.St.acquire] at h; split at h <;> cases h; simp [isUl]
  | ulTest m c =>
    cases c <;> simp only [hq, isUl, Bool.false_eq_true, decide_eq_true_eq] at hp
    subst hp
    simp only [hq, SharedMutex.St.goto] at h
    simp only [SharedMutex.Loc, hq] at hl
    have hh := hl.1 trivial
    rw [if_neg (by simp [hh.2.1, hh.2.2])] at h
    cases h; simp [isUl, wake_same]
  | ulRet m c =>
    cases c <;> simp only [hq, isUl, Bool.false_eq_true, decide_eq_true_eq] at hp
    subst hp
    simp only [hq] at h; cases h; simp
  | _ => simp [hq, isUl] at hp

/-! ## Invariant -/

/-- What coroutine `t` has. (Concerns co_shared_mutex.cpp:15-218.) -/
def State.has (s : State) (t : Tid) (m : Nat) : Option Mode := (s.mu m).hold t

/-- Where coroutine `t` is in the call of mutex `m`, and the discipline for the rest. (Concerns co_shared_mutex.cpp:15-218.) -/
def Within (s : State) (t : Tid) (m : Nat) : Prog → Prop
  | .done => False
  | .lock w k p => k = m ∧ isLk w ((s.mu m).pc t) = true ∧ (∀ j, s.has t j ≠ none → j < m) ∧ p.ordered (upd (s.has t) m (some w))
  | .unlock w k p => k = m ∧ isUl w ((s.mu m).pc t) = true ∧ p.ordered (s.has t)
  | .try w k y n => k = m ∧ isTl w ((s.mu m).pc t) = true ∧ s.has t m = none ∧ y.ordered (upd (s.has t) m (some w)) ∧ n.ordered (s.has t)

/-- Every mutex is in order, everybody is in the call its program is at, the discipline holds for the rest, and only finitely many mutexes were ever used. (Concerns co_shared_mutex.cpp:15-218.) -/
structure Inv (s : State) : Prop where
  mu : ∀ m, SharedMutex.Inv (s.mu m)
  own : ∀ t m, (s.mu m).pc t ≠ .out ↔ s.cur t = some m
  idle : ∀ t, s.cur t = none → (s.prog t).ordered (s.has t)
  busy : ∀ t m, s.cur t = some m → Within s t m (s.prog t)
  fin : ∃ B, ∀ m, B ≤ m → s.mu m = SharedMutex.St.init

theorem inv_init (p : Tid → Prog) (hp : ∀ t, (p t).ordered (fun _ => none)) : Inv (State.init p) := by
  refine ⟨fun m => SharedMutex.inv_init, fun t m => ?_, fun t _ => hp t, fun t m h => ?_, 0, fun m _ => rfl⟩
  · simp [State.init, SharedMutex.St.init]
  · simp [State.init] at h

theorem has_upd (s : State) (m : Nat) (x : SharedMutex.St) (P : Tid → Prog) (c : Tid → Option Nat) (t : Tid) :
    State.has ⟨upd s.mu m x, P, c⟩ t = upd (s.has t) m (x.hold t) := by
  funext k
  simp only [State.has, upd_apply]
  split <;> rfl

theorem upd_has (s : State) (t : Tid) (m : Nat) (b : Option Mode) (h : b = (s.mu m).hold t) : upd (s.has t) m b = s.has t := by
  funext k
  simp only [upd_apply]
  split
  · rename_i hk; subst hk; rw [h]; rfl
  · rfl

theorem upd_upd {A : Type} (f : Nat → A) (m : Nat) (a b : A) : upd (upd f m a) m b = upd f m b := by
  funext k; simp only [upd_apply]; split <;> rfl

/-- What a coroutine that does not make the step has and where it is does not change. -/
theorem other_same {s : State} {u : Tid} {m : Nat} {x : SharedMutex.St} {P : Tid → Prog} {c : Tid → Option Nat}
    (h1 : x.pc u = (s.mu m).pc u) (h2 : x.hold u = (s.mu m).hold u) :
    (∀ k, ((upd s.mu m x) k).pc u = (s.mu k).pc u) ∧ State.has ⟨upd s.mu m x, P, c⟩ u = s.has u := by
  refine ⟨fun k => ?_, ?_⟩
  · simp only [upd_apply]; split
    · rename_i hk; subst hk; exact h1
    · rfl
  · rw [has_upd]; exact upd_has s u m _ h2

theorem within_congr {s s' : State} {u : Tid} {m : Nat} {p : Prog} (h1 : (s'.mu m).pc u = (s.mu m).pc u) (h2 : s'.has u = s.has u)
    (h : Within s u m p) : Within s' u m p := by
  cases p <;> simp only [Within, h1, h2] at h ⊢ <;> exact h

theorem inv_step (s : State) (a : Tid × Bool) (s' : State) (es : List (Nat × Ev)) (hi : Inv s) (hm : ¬ Mixed s a) (h : step s a = some (s', es)) : Inv s' := by
  obtain ⟨t, b⟩ := a
  obtain ⟨hmu, hown, hidle, hbusy, B, hB⟩ := hi
  simp only [step] at h
  cases hc : s.cur t with
  | none =>
    rw [hc] at h
    have hord := hidle t hc
    have hout : ∀ m, (s.mu m).pc t = .out := fun m => Decidable.byContradiction fun hn => by
      have := (hown t m).1 hn; rw [hc] at this; cases this
    have hnc : ∀ m c, (s.prog t).first t = some (m, c) → ¬ SharedMutex.MixedWake (s.mu m) c := by
      intro m c hf
      cases hp : s.prog t <;> simp only [hp, Prog.first, Option.some.injEq, Prod.mk.injEq, reduceCtorEq] at hf <;>
        obtain ⟨rfl, rfl⟩ := hf <;> exact id
    simp only at h
    split at h
    · cases h
    · rename_i m c hf
      split at h
      · cases h
      · rename_i x es' hx
        simp only [Option.some.injEq, Prod.mk.injEq] at h
        obtain ⟨rfl, -⟩ := h
        have hxi := SharedMutex.inv_step _ _ _ _ (hmu m) (hnc m c hf) hx
        -- facts about the call
        have hoth : ∀ u, u ≠ t → x.pc u = (s.mu m).pc u ∧ x.hold u = (s.mu m).hold u := by
          intro u hu
          cases hp : s.prog t <;> simp only [hp, Prog.first, Option.some.injEq, Prod.mk.injEq, reduceCtorEq] at hf <;>
            obtain ⟨rfl, rfl⟩ := hf <;> simp only [SharedMutex.step, SharedMutex.St.goto] at hx <;> split at hx <;> cases hx <;> grind
        have hme : Within ⟨upd s.mu m x, s.prog, upd s.cur t (some m)⟩ t m (s.prog t) ∧ x.pc t ≠ .out := by
          cases hp : s.prog t with
          | done => simp [hp, Prog.first] at hf
          | lock w k p =>
            simp only [hp, Prog.first, Option.some.injEq, Prod.mk.injEq] at hf
            obtain ⟨rfl, rfl⟩ := hf
            simp only [SharedMutex.step, SharedMutex.St.goto] at hx
            split at hx <;> cases hx
            rw [hp] at hord
            refine ⟨⟨rfl, by simp [isLk], ?_, ?_⟩, by simp⟩ <;> rw [has_upd, upd_has s t k _ rfl]
            · exact hord.1
            · exact hord.2
          | unlock w k p =>
            simp only [hp, Prog.first, Option.some.injEq, Prod.mk.injEq] at hf
            obtain ⟨rfl, rfl⟩ := hf
            simp only [SharedMutex.step] at hx
            split at hx <;> cases hx
            rw [hp] at hord
            have hh : (s.mu k).hold t = some w := hord.1
            refine ⟨⟨rfl, by simp [isUl, hh], ?_⟩, by simp⟩
            rw [has_upd]; simp only [hh, if_true, upd_same]; exact hord.2
          | «try» w k y n =>
            simp only [hp, Prog.first, Option.some.injEq, Prod.mk.injEq] at hf
            obtain ⟨rfl, rfl⟩ := hf
            simp only [SharedMutex.step, SharedMutex.St.goto] at hx
            split at hx <;> cases hx
            rw [hp] at hord
            refine ⟨⟨rfl, by simp [isTl], ?_⟩, by simp⟩
            rw [has_upd, upd_has s t k _ rfl]; exact hord
        refine ⟨fun k => ?_, fun u k => ?_, fun u hu => ?_, fun u k hu => ?_, max B (m + 1), fun k hk => ?_⟩
        · simp only [upd_apply]; split
          · exact hxi
          · exact hmu k
        · by_cases hu : u = t
          · subst hu
            simp only [upd_apply, if_true, Option.some.injEq]
            split
            · rename_i hk; subst hk; simpa using hme.2
            · rename_i hk; simp [hout k]; exact fun h => hk h.symm
          · rw [(other_same (P := s.prog) (c := s.cur) (hoth u hu).1 (hoth u hu).2).1 k]
            simpa [upd_apply, hu] using hown u k
        · by_cases hut : u = t
          · subst hut; simp at hu
          · simp only [upd_other _ _ hut] at hu
            rw [(other_same (hoth u hut).1 (hoth u hut).2).2]; exact hidle u hu
        · by_cases hut : u = t
          · subst hut
            simp only [upd_same, Option.some.injEq] at hu
            subst hu; exact hme.1
          · simp only [upd_other _ _ hut] at hu
            have ho := other_same (P := s.prog) (c := upd s.cur t (some m)) (hoth u hut).1 (hoth u hut).2
            exact within_congr (ho.1 k) ho.2 (hbusy u k hu)
        · simp only [upd_apply]; split
          · rename_i hkm; exact absurd (show (k : Nat) = m from hkm) (by omega)
          · exact hB k (by omega)
  | some m =>
    rw [hc] at h
    simp only at h
    have hw := hbusy t m hc
    split at h
    · cases h
    · rename_i x es' hx
      have hxi := SharedMutex.inv_step _ _ _ _ (hmu m) (fun hx => hm ⟨m, hc, hx⟩) hx
      have hoth : ∀ u, u ≠ t → x.pc u = (s.mu m).pc u ∧ x.hold u = (s.mu m).hold u := fun u hu => run_other hx hu
      have hoth2 : ∀ k, k ≠ m → (s.mu k).pc t = .out := fun k hk => Decidable.byContradiction fun hn => by
        have := (hown t k).1 hn; rw [hc, Option.some.injEq] at this; exact hk this.symm
      have hfin : ∀ P c, ∃ B, ∀ k, B ≤ k → (State.mk (upd s.mu m x) P c).mu k = SharedMutex.St.init := by
        intro P c
        refine ⟨max B (m + 1), fun k hk => ?_⟩
        simp only [upd_apply]; split
        · rename_i hkm; exact absurd (show (k : Nat) = m from hkm) (by omega)
        · exact hB k (by omega)
      have hmu' : ∀ k, SharedMutex.Inv ((upd s.mu m x) k) := by
        intro k; simp only [upd_apply]; split
        · exact hxi
        · exact hmu k
      split at h
      · rename_i hout
        simp only [Option.some.injEq, Prod.mk.injEq] at h
        obtain ⟨rfl, -⟩ := h
        refine ⟨hmu', fun u k => ?_, fun u hu => ?_, fun u k hu => ?_, hfin _ _⟩
        · by_cases hut : u = t
          · subst hut
            simp only [upd_same, reduceCtorEq, iff_false, ne_eq, Decidable.not_not, upd_apply]
            split
            · exact hout
            · rename_i hk; exact hoth2 k hk
          · rw [(other_same (P := s.prog) (c := s.cur) (hoth u hut).1 (hoth u hut).2).1 k]
            simpa [upd_apply, hut] using hown u k
        · by_cases hut : u = t
          · subst hut
            rw [has_upd]
            simp only [upd_same]
            cases hp : s.prog u with
            | done => rw [hp] at hw; exact hw.elim
            | lock w k p =>
              rw [hp] at hw
              obtain ⟨rfl, h1, h2, h3⟩ := hw
              rcases run_lk hx h1 with ⟨h4, _⟩ | ⟨_, h5, rfl⟩
              · rw [hout] at h4; cases h4
              · rw [h5]; simpa [Prog.rest, isAcq] using h3
            | unlock w k p =>
              rw [hp] at hw
              obtain ⟨rfl, h1, h2⟩ := hw
              rcases run_ul (hmu k) hx h1 with ⟨h4, _⟩ | ⟨_, h5, rfl⟩
              · rw [hout] at h4; cases h4
              · rw [h5, upd_has s u k _ rfl]; simpa [Prog.rest] using h2
            | «try» w k y n =>
              rw [hp] at hw
              obtain ⟨rfl, h1, h2, h3, h4⟩ := hw
              rcases run_tl hx h1 with ⟨h5, _⟩ | ⟨_, h5, rfl⟩ | ⟨_, h5, rfl⟩
              · rw [hout] at h5; cases h5
              · rw [h5]; simpa [Prog.rest, isAcq] using h3
              · rw [h5, upd_has s u k _ rfl]; simpa [Prog.rest, isAcq] using h4
          · simp only [upd_other _ _ hut] at hu ⊢
            rw [(other_same (hoth u hut).1 (hoth u hut).2).2]; exact hidle u hu
        · by_cases hut : u = t
          · subst hut; simp at hu
          · simp only [upd_other _ _ hut] at hu ⊢
            have ho := other_same (P := upd s.prog t ((s.prog t).rest (es'.any isAcq))) (c := upd s.cur t none) (hoth u hut).1 (hoth u hut).2
            exact within_congr (ho.1 k) ho.2 (hbusy u k hu)
      · rename_i hout
        simp only [Option.some.injEq, Prod.mk.injEq] at h
        obtain ⟨rfl, -⟩ := h
        refine ⟨hmu', fun u k => ?_, fun u hu => ?_, fun u k hu => ?_, hfin _ _⟩
        · by_cases hut : u = t
          · subst hut
            simp only [hc, upd_apply, Option.some.injEq]
            split
            · rename_i hk; subst hk; simpa using hout
            · rename_i hk; simp [hoth2 k hk]; exact fun h => hk h.symm
          · rw [(other_same (P := s.prog) (c := s.cur) (hoth u hut).1 (hoth u hut).2).1 k]
            exact hown u k
        · have hut : u ≠ t := by rintro rfl; simp only [hc] at hu; cases hu
          rw [(other_same (hoth u hut).1 (hoth u hut).2).2]; exact hidle u hu
        · by_cases hut : u = t
          · subst hut
            simp only [hc, Option.some.injEq] at hu
            subst hu
            have hhas : x.hold = (s.mu m).hold → State.has ⟨upd s.mu m x, s.prog, s.cur⟩ u = s.has u := fun he => by
              rw [has_upd, he]; exact upd_has s u m _ rfl
            cases hp : s.prog u with
            | done => rw [hp] at hw; exact hw.elim
            | lock w k p =>
              rw [hp] at hw
              obtain ⟨rfl, h1, h2, h3⟩ := hw
              rcases run_lk hx h1 with ⟨h4, h5, _⟩ | ⟨h4, _⟩
              · refine ⟨rfl, by simpa using h4, ?_⟩; rw [hhas h5]; exact ⟨h2, h3⟩
              · exact absurd h4 hout
            | unlock w k p =>
              rw [hp] at hw
              obtain ⟨rfl, h1, h2⟩ := hw
              rcases run_ul (hmu k) hx h1 with ⟨h4, h5, _⟩ | ⟨h4, _⟩
              · refine ⟨rfl, by simpa using h4, ?_⟩; rw [hhas h5]; exact h2
              · exact absurd h4 hout
            | «try» w k y n =>
              rw [hp] at hw
              obtain ⟨rfl, h1, h2, h3, h4⟩ := hw
              rcases run_tl hx h1 with ⟨h6, h5, _⟩ | ⟨h6, _⟩ | ⟨h6, _⟩
              · refine ⟨rfl, by simpa using h6, ?_⟩; rw [hhas h5]; exact ⟨h2, h3, h4⟩
              · exact absurd h6 hout
              · exact absurd h6 hout
          · have ho := other_same (P := s.prog) (c := s.cur) (hoth u hut).1 (hoth u hut).2
            exact within_congr (ho.1 k) ho.2 (hbusy u k hu)

theorem inv_reach {p : Tid → Prog} (hp : ∀ t, (p t).ordered (fun _ => none)) {as : List (Tid × Bool)} {s : State} {es : List (Nat × Ev)}
    (hcl : Clean (State.init p) as) (h : runs step (State.init p) as = some (s, es)) : Inv s := by
  have hi := inv_init p hp
  clear hp
  generalize State.init p = s0 at h hi hcl
  induction as generalizing s0 es with
  | nil =>
    simp only [runs, Option.some.injEq, Prod.mk.injEq] at h
    rw [← h.1]; exact hi
  | cons a as ih =>
    obtain ⟨s1, e1, e2, h1, h2, rfl⟩ := runs_cons h
    exact ih _ h2 (inv_step _ _ _ _ hi hcl.head h1) (hcl.tail h1)

theorem run_out {x : SharedMutex.St} {t : Tid} (b : Bool) (h : x.pc t = .out) : SharedMutex.step x (.run t b) = none := by
  simp [SharedMutex.step, SharedMutex.runStep, h]

/-- Who is not inside a call and has not finished can begin the next call. -/
theorem can_begin {s : State} (hi : Inv s) {t : Tid} (b : Bool) (hc : s.cur t = none) (h : step s (t, b) = none) : s.prog t = .done := by
  have hout : ∀ m, (s.mu m).pc t = .out := fun m => Decidable.byContradiction fun hn => by
    have := (hi.own t m).1 hn; rw [hc] at this; cases this
  have ho := hi.idle t hc
  cases hp : s.prog t with
  | done => rfl
  | lock w m p =>
    rw [hp] at ho
    have hh : (s.mu m).hold t = none := Decidable.byContradiction fun hm => absurd (ho.1 m hm) (Nat.lt_irrefl m)
    simp [step, hc, hp, Prog.first, SharedMutex.step, hout, hh] at h
  | unlock w m p => simp [step, hc, hp, Prog.first, SharedMutex.step, hout] at h
  | «try» w m y n =>
    rw [hp] at ho
    have hh : (s.mu m).hold t = none := ho.1
    simp [step, hc, hp, Prog.first, SharedMutex.step, hout, hh] at h

/-- When nobody can make a step, nobody is inside a call. -/
theorem nobody_inside {s : State} (hi : Inv s) (hst : ∀ a, step s a = none) : ∀ t, s.cur t = none := by
  obtain ⟨B, hB⟩ := hi.fin
  have hmst : ∀ m t b, SharedMutex.step (s.mu m) (.run t b) = none := by
    intro m t b
    cases hp : SharedMutex.step (s.mu m) (.run t b) with
    | none => rfl
    | some q =>
      exfalso
      have hne : (s.mu m).pc t ≠ .out := fun ho => by rw [run_out b ho] at hp; cases hp
      have hc := (hi.own t m).1 hne
      have := hst (t, b)
      simp only [step, hc, hp] at this
      split at this <;> cases this
  have key : ∀ n m t, n + m = B → s.cur t = some m → False := by
    intro n
    induction n using Nat.strongRecOn with
    | ind n ih =>
      intro m t hn hc
      obtain ⟨_, _, _, u, _, hu, ho⟩ := SharedMutex.stuck _ (hi.mu m) (hmst m) t ((hi.own t m).2 hc)
      cases hcu : s.cur u with
      | none =>
        have hd := can_begin hi false hcu (hst (u, false))
        have := hi.idle u hcu
        rw [hd] at this
        exact absurd (this m) hu
      | some k =>
        have hne := (hi.own u k).2 hcu
        obtain ⟨_, hpk, _⟩ := SharedMutex.stuck _ (hi.mu k) (hmst k) u hne
        have hkB : k < B := Decidable.byContradiction fun hge => by
          rw [hB k (by omega)] at hne; exact hne rfl
        have hw := hi.busy u k hcu
        have hmk : m < k := by
          cases hp : s.prog u with
          | done => rw [hp] at hw; exact hw.elim
          | lock w j q => rw [hp] at hw; exact hw.2.2.1 m hu
          | unlock w j q => rw [hp] at hw; have := hw.2.1; rw [hpk] at this; cases this
          | «try» w j y q => rw [hp] at hw; have := hw.2.1; rw [hpk] at this; cases this
        exact ih (B - k) (by omega) k u (by omega) hcu
  intro t
  cases hc : s.cur t with
  | none => rfl
  | some m =>
    have hne := (hi.own t m).2 hc
    have hmB : m < B := Decidable.byContradiction fun hge => by
      rw [hB m (by omega)] at hne; exact hne rfl
    exact (key (B - m) m t (by omega) hc).elim

/-- When nobody can make a step, everybody has finished, and nobody owns anything. -/
theorem stuck_done {s : State} (hi : Inv s) (hst : ∀ a, step s a = none) (t : Tid) : s.prog t = .done ∧ s.cur t = none ∧ ∀ m, t ∉ (s.mu m).owners := by
  have hc := nobody_inside hi hst
  have hd := can_begin hi false (hc t) (hst (t, false))
  refine ⟨hd, hc t, fun m ho => ?_⟩
  have hl := (hi.mu m).loc t
  have hout : (s.mu m).pc t = .out := Decidable.byContradiction fun hn => by
    have := (hi.own t m).1 hn; rw [hc t] at this; cases this
  have hn := hi.idle t (hc t)
  rw [hd] at hn
  have hn : (s.mu m).hold t = none := hn m
  simp only [SharedMutex.Loc, hout] at hl
  exact hl.2.1.2 ho hn

/-- **C133**: if everybody locks, for reading or for writing, in one and the same order (the try calls excepted) and unlocks what it has, and no wake-up goes wrong, there is no deadlock: in every
state that can be reached in which nobody can make a step, everybody has finished its program, and no mutex is owned. (Partial: without the condition on the wake-ups it is false,
`C133_ordered_deadlocks`.) -/
theorem C133_no_deadlock_partial (p : Tid → Prog) (hp : ∀ t, (p t).ordered (fun _ => none)) (as : List (Tid × Bool)) (s : State) (es : List (Nat × Ev))
    (hcl : Clean (State.init p) as) (h : runs step (State.init p) as = some (s, es)) (hst : ∀ a, step s a = none) (t : Tid) :
    s.prog t = .done ∧ s.cur t = none ∧ ∀ m, t ∉ (s.mu m).owners := stuck_done (inv_reach hp hcl h) hst t

theorem step_throws {s s' : State} {a : Tid × Bool} {es : List (Nat × Ev)} (hi : Inv s) (h : step s a = some (s', es)) (m : Nat) (w : Mode) (t : Tid) :
    (m, .unlockRet w t false) ∉ es := by
  obtain ⟨u, b⟩ := a
  simp only [step] at h
  cases hc : s.cur u with
  | none =>
    rw [hc] at h
    cases hp : s.prog u <;> simp only [hp, Prog.first, SharedMutex.step] at h
    · cases h
    all_goals split at h
    all_goals try cases h
    all_goals rename_i hx
    all_goals split at hx <;> cases hx <;> simp
  | some k =>
    rw [hc] at h
    have hw := hi.busy u k hc
    simp only at h
    split at h
    · cases h
    · rename_i x es' hx
      have hes : es = es'.map ((k, ·)) := by split at h <;> cases h <;> rfl
      have h2 : ∀ w v, Ev.unlockRet w v false ∉ es' := by
        intro w' v
        cases hp : s.prog u with
        | done => rw [hp] at hw; exact hw.elim
        | lock w j q => rw [hp] at hw; rcases run_lk hx hw.2.1 with h | h <;> simp [h.2.2]
        | unlock w j q => rw [hp] at hw; rcases run_ul (hi.mu k) hx hw.2.1 with h | h <;> simp [h.2.2]
        | «try» w j y n => rw [hp] at hw; rcases run_tl hx hw.2.1 with h | h | h <;> simp [h.2.2]
      rw [hes]
      simp only [List.mem_map, Prod.mk.injEq, not_exists, not_and]
      rintro e he rfl rfl
      exact h2 w t he

/-- **C133**: no `unlock()` and no `unlock_shared()` of such a program is refused. (Partial: as long as no wake-up goes wrong.) -/
theorem C133_unlock_never_throws_partial (p : Tid → Prog) (hp : ∀ t, (p t).ordered (fun _ => none)) (as : List (Tid × Bool)) (s : State) (es : List (Nat × Ev))
    (hcl : Clean (State.init p) as) (h : runs step (State.init p) as = some (s, es)) (m : Nat) (w : Mode) (t : Tid) : (m, .unlockRet w t false) ∉ es := by
  have hi := inv_init p hp
  clear hp
  generalize State.init p = s0 at h hi hcl
  induction as generalizing s0 es with
  | nil =>
    simp only [runs, Option.some.injEq, Prod.mk.injEq] at h
    rw [← h.2]; exact List.not_mem_nil
  | cons a as ih =>
    obtain ⟨s1, e1, e2, h1, h2, rfl⟩ := runs_cons h
    have h3 := ih _ _ h2 (inv_step _ _ _ _ hi hcl.head h1) (hcl.tail h1)
    rw [List.mem_append]
    exact fun hm => hm.elim (fun hm => step_throws hi h1 m w t hm) h3

/-! ## An end -/

/-- An upper bound for the steps of a program when the clock is always up. (Concerns co_shared_mutex.cpp:15-218.) -/
def Prog.cost : Prog → Nat
  | .done => 0
  | .lock _ _ p => 11 + p.cost
  | .unlock _ _ p => 4 + p.cost
  | .try _ _ y n => 4 + max y.cost n.cost

/-- What is left behind the current call. (Concerns co_shared_mutex.cpp:15-218.) -/
def Prog.costRest : Prog → Nat
  | .done => 0
  | .lock _ _ p => p.cost
  | .unlock _ _ p => p.cost
  | .try _ _ y n => max y.cost n.cost

/-- What coroutine `t` still has to do. (Concerns co_shared_mutex.cpp:15-218.) -/
def State.left (s : State) (t : Tid) : Nat :=
  match s.cur t with
  | none => (s.prog t).cost
  | some m => SharedMutex.rank (s.mu m) t + (s.prog t).costRest

theorem rest_cost (p : Prog) (b : Bool) : (p.rest b).cost ≤ p.costRest := by
  cases p <;> simp only [Prog.rest, Prog.costRest, Prog.cost] <;> grind

theorem left_step {s s' : State} {t : Tid} {b : Bool} {es : List (Nat × Ev)} (hi : Inv s) (h : step s (t, b) = some (s', es)) :
    (∀ u, u ≠ t → s'.left u = s.left u ∧ s'.prog u = s.prog u ∧ s'.cur u = s.cur u) ∧ s'.left t + 1 ≤ s.left t + (if b then 0 else 3) := by
  simp only [step] at h
  cases hc : s.cur t with
  | none =>
    rw [hc] at h
    have hout : ∀ m, (s.mu m).pc t = .out := fun m => Decidable.byContradiction fun hn => by
      have := (hi.own t m).1 hn; rw [hc] at this; cases this
    simp only at h
    split at h
    · cases h
    · rename_i m c hf
      split at h
      · cases h
      · rename_i x es' hx
        simp only [Option.some.injEq, Prod.mk.injEq] at h
        obtain ⟨rfl, -⟩ := h
        refine ⟨fun u hu => ⟨?_, rfl, upd_other _ _ hu⟩, ?_⟩
        · have hoth : x.pc u = (s.mu m).pc u ∧ x.owners = (s.mu m).owners := by
            cases hp : s.prog t <;> simp only [hp, Prog.first, Option.some.injEq, Prod.mk.injEq, reduceCtorEq] at hf <;>
              obtain ⟨rfl, rfl⟩ := hf <;> simp only [SharedMutex.step, SharedMutex.St.goto] at hx <;> split at hx <;> cases hx <;> simp [hu]
          simp only [State.left, upd_other _ _ hu]
          split
          · rfl
          · rename_i k _
            congr 1
            by_cases hk : k = m
            · subst hk; rw [upd_same]; simp only [SharedMutex.rank, hoth.1, hoth.2]
            · rw [upd_other _ _ hk]
        · simp only [State.left, upd_same, hc]
          cases hp : s.prog t <;> simp only [hp, Prog.first, Option.some.injEq, Prod.mk.injEq, reduceCtorEq] at hf <;>
            obtain ⟨rfl, rfl⟩ := hf <;> simp only [SharedMutex.step, SharedMutex.St.goto] at hx <;> split at hx <;> cases hx <;>
            simp only [SharedMutex.rank, upd_same, Prog.cost, Prog.costRest] <;> omega
  | some m =>
    rw [hc] at h
    simp only at h
    split at h
    · cases h
    · rename_i x es' hx
      have hr := SharedMutex.rank_step _ _ _ _ _ (hi.mu m) hx
      have hoth : ∀ P c u, u ≠ t → c u = s.cur u → P u = s.prog u → State.left ⟨upd s.mu m x, P, c⟩ u = s.left u := by
        intro P c u hu h1 h2
        simp only [State.left, h1, h2]
        split
        · rfl
        · rename_i k _
          congr 1
          by_cases hk : k = m
          · subst hk; rw [upd_same]; exact (hr.1 u hu).1
          · rw [upd_other _ _ hk]
      split at h
      · rename_i hout
        simp only [Option.some.injEq, Prod.mk.injEq] at h
        obtain ⟨rfl, -⟩ := h
        refine ⟨fun u hu => ⟨hoth _ _ u hu (upd_other _ _ hu) (upd_other _ _ hu), upd_other _ _ hu, upd_other _ _ hu⟩, ?_⟩
        have h2 := rest_cost (s.prog t) (es'.any isAcq)
        have h3 := hr.2
        simp only [State.left, upd_same, hc]
        have : SharedMutex.rank x t = 0 := by simp [SharedMutex.rank, hout]
        omega
      · simp only [Option.some.injEq, Prod.mk.injEq] at h
        obtain ⟨rfl, -⟩ := h
        refine ⟨fun u hu => ⟨hoth _ _ u hu rfl rfl, rfl, rfl⟩, ?_⟩
        have h3 := hr.2
        simp only [State.left, upd_same, hc]
        omega

/-- How often in a schedule the clock is not up yet. (Concerns co_shared_mutex.cpp:15-218.) -/
def spins (as : List (Tid × Bool)) : Nat := as.countP fun a => !a.2

theorem bounded (L : List Tid) (hn : L.Nodup) (as : List (Tid × Bool)) : ∀ (s s' : State) (es : List (Nat × Ev)), Inv s → Clean s as →
    (∀ u, u ∉ L → s.prog u = .done ∧ s.cur u = none) → runs step s as = some (s', es) →
    as.length + sumOver L s'.left ≤ sumOver L s.left + 3 * spins as := by
  induction as with
  | nil =>
    intro s s' es _ _ _ h
    simp only [runs, Option.some.injEq, Prod.mk.injEq] at h
    simp [h.1]
  | cons a as ih =>
    intro s s' es hi hcl hL h
    obtain ⟨t, b⟩ := a
    obtain ⟨s1, e1, e2, h1, h2, rfl⟩ := runs_cons h
    have hr := left_step hi h1
    have ht : t ∈ L := by
      apply Decidable.byContradiction
      intro htL
      obtain ⟨h3, h4⟩ := hL t htL
      simp [step, h3, h4, Prog.first] at h1
    have h3 := ih s1 s' e2 (inv_step _ _ _ _ hi hcl.head h1) (hcl.tail h1) (fun u hu => by
      have hut : u ≠ t := by rintro rfl; exact hu ht
      rw [(hr.1 u hut).2.1, (hr.1 u hut).2.2]; exact hL u hu) h2
    have h4 := sumOver_single (f := s1.left) (g := s.left) hn ht (fun u hu => (hr.1 u hu).1)
    have h5 := hr.2
    simp only [List.length_cons, spins, List.countP_cons] at h3 ⊢
    cases b <;> simp at h5 ⊢ <;> omega

/-- **C133**: and there is an end: between the first step and the last are at most so many steps as the programs have (at most eleven for each `lock()` or `lock_shared()`, four for each of the
other calls), and three for each time a coroutine that looks at the clock finds that it should spin on. (Partial: as long as no wake-up goes wrong.) -/
theorem C133_terminates_partial (p : Tid → Prog) (hp : ∀ t, (p t).ordered (fun _ => none)) (L : List Tid) (hn : L.Nodup) (hL : ∀ u, u ∉ L → p u = .done)
    (as : List (Tid × Bool)) (s : State) (es : List (Nat × Ev)) (hcl : Clean (State.init p) as) (h : runs step (State.init p) as = some (s, es)) :
    as.length ≤ sumOver L (fun t => (p t).cost) + 3 * spins as := by
  have := bounded L hn as _ _ _ (inv_init p hp) hcl (fun u hu => ⟨hL u hu, rfl⟩) h
  have h2 : (State.init p).left = fun t => (p t).cost := rfl
  rw [h2] at this
  omega

/-! ## Programs of which no execution has a wake-up that goes wrong -/

/-- Each mutex is waited for in one mode only: `W m` for mutex `m`; the try calls may be for either. (A condition on programs of the user.) (Concerns co_shared_mutex.cpp:15-218.) -/
def Prog.waits (W : Nat → Mode) : Prog → Prop
  | .done => True
  | .lock w m p => w = W m ∧ p.waits W
  | .unlock _ _ p => p.waits W
  | .try _ _ y n => y.waits W ∧ n.waits W

/-- Everybody inside a call that can block, and everybody in a queue, is there in the one mode of the mutex. (Concerns co_shared_mutex.cpp:15-218.) -/
structure OneMode (W : Nat → Mode) (s : State) : Prop where
  prog : ∀ t, (s.prog t).waits W
  queue : ∀ m e, e ∈ (s.mu m).queue → e.1 = W m
  lk : ∀ m t w, isLk w ((s.mu m).pc t) = true → w = W m

theorem rest_waits {W : Nat → Mode} {p : Prog} (b : Bool) (h : p.waits W) : (p.rest b).waits W := by
  cases p <;> simp only [Prog.waits, Prog.rest] at h ⊢ <;> grind

theorem run_queue {x x' : SharedMutex.St} {t : Tid} {b : Bool} {es : List Ev} (h : SharedMutex.step x (.run t b) = some (x', es)) :
    (∀ e, e ∈ x'.queue → e ∈ x.queue ∨ isLk e.1 (x.pc t) = true) ∧ (∀ u w, isLk w (x'.pc u) = true → isLk w (x.pc u) = true) := by
  refine ⟨?_, fun u w hw => ?_⟩
  · simp only [SharedMutex.step, SharedMutex.runStep] at h
    cases hq : x.pc t <;> simp only [hq, SharedMutex.St.acquire, SharedMutex.St.goto, SharedMutex.St.take] at h <;> (repeat' split at h) <;> cases h
    case refine_1.ulTest.isFalse.refl => exact fun e he => .inl ((SharedMutex.wake_sub { x with owners := x.owners.erase t }).1 e he)
    case refine_1.lkCheck.isFalse.refl =>
      intro e he
      simp only [List.mem_append, List.mem_singleton] at he
      rcases he with he | rfl
      · exact .inl he
      · right; simp [isLk]
    all_goals exact fun e he => .inl he
  · by_cases hu : u = t
    · subst hu
      simp only [SharedMutex.step, SharedMutex.runStep] at h
      cases hq : x.pc u <;> simp only [hq, SharedMutex.St.acquire, SharedMutex.St.goto, SharedMutex.St.take] at h <;> (repeat' split at h) <;> cases h
      all_goals simp [isLk] at hw ⊢
      all_goals exact hw
    · rwa [(run_other h hu).1] at hw

theorem oneMode_step {W : Nat → Mode} {s s' : State} {a : Tid × Bool} {es : List (Nat × Ev)} (hi : OneMode W s) (h : step s a = some (s', es)) : OneMode W s' := by
  obtain ⟨t, b⟩ := a
  obtain ⟨hp, hq, hl⟩ := hi
  simp only [step] at h
  have key : ∀ m x, (∀ e, e ∈ x.queue → e.1 = W m) → (∀ u w, isLk w (x.pc u) = true → w = W m) → ∀ P c, (∀ u, (P u).waits W) → OneMode W ⟨upd s.mu m x, P, c⟩ := by
    intro m x h1 h2 P c h3
    refine ⟨h3, fun k e he => ?_, fun k u w hw => ?_⟩
    · simp only [upd_apply] at he
      split at he
      · rename_i hk; subst hk; exact h1 e he
      · exact hq k e he
    · simp only [upd_apply] at hw
      split at hw
      · rename_i hk; subst hk; exact h2 u w hw
      · exact hl k u w hw
  split at h
  · split at h
    · cases h
    · rename_i m c hf
      split at h
      · cases h
      · rename_i x es' hx
        cases h
        have hpt := hp t
        refine key m x ?_ ?_ _ _ hp
        all_goals
          cases hpr : s.prog t <;> simp only [hpr, Prog.first, Option.some.injEq, Prod.mk.injEq, reduceCtorEq] at hf <;>
            obtain ⟨rfl, rfl⟩ := hf <;> simp only [SharedMutex.step, SharedMutex.St.goto] at hx <;> split at hx <;> cases hx
        · exact hq _
        · exact hq _
        · exact hq _
        all_goals
          intro u w hw
          by_cases hu : u = t
          · subst hu
            simp only [upd_same, isLk, decide_eq_true_eq, Bool.false_eq_true] at hw
            try (rw [hpr] at hpt; rw [← hw]; exact hpt.1)
          · simp only [upd_other _ _ hu] at hw; exact hl _ u w hw
  · rename_i m hc
    split at h
    · cases h
    · rename_i x es' hx
      have h1 : ∀ e, e ∈ x.queue → e.1 = W m := fun e he => ((run_queue hx).1 e he).elim (hq m e) (hl m t e.1)
      have h2 : ∀ u w, isLk w (x.pc u) = true → w = W m := fun u w hw => hl m u w ((run_queue hx).2 u w hw)
      split at h <;> cases h
      · refine key m x h1 h2 _ _ fun u => ?_
        simp only [upd_apply]; split
        · exact rest_waits _ (hp t)
        · exact hp u
      · exact key m x h1 h2 _ _ hp

theorem clean_of_oneMode {W : Nat → Mode} (as : List (Tid × Bool)) (s : State) (hi : OneMode W s) : Clean s as := by
  intro pre
  induction pre generalizing s as with
  | nil =>
    rintro a post s1 e1 rfl h ⟨m, _, hx⟩
    simp only [runs, Option.some.injEq, Prod.mk.injEq] at h
    obtain ⟨rfl, -⟩ := h
    obtain ⟨_, _, _, _, _, ⟨u, rest, hu⟩, w, hw⟩ := hx
    have h1 := hi.queue m (.shared, u) (by rw [hu]; exact List.mem_cons_self)
    have h2 := hi.queue m (.unique, w) hw
    rw [← h1] at h2; cases h2
  | cons c pre ih =>
    rintro a post s1 e1 rfl h
    obtain ⟨s2, e2, e3, h1, h2, rfl⟩ := runs_cons h
    exact ih (pre ++ a :: post) s2 (oneMode_step hi h1) a post s1 e3 rfl h2

/-- No execution of such programs has a wake-up that goes wrong. -/
theorem clean_of_waits (W : Nat → Mode) (p : Tid → Prog) (hw : ∀ t, (p t).waits W) (as : List (Tid × Bool)) : Clean (State.init p) as :=
  clean_of_oneMode as _ ⟨hw, fun m e he => by simp [State.init, SharedMutex.St.init] at he, fun m t w h => by simp [State.init, SharedMutex.St.init, isLk] at h⟩

/-- **C133**: programs in a fixed order that wait for each mutex in one mode only (only for reading, or only for writing; trying is free) never deadlock, whatever the schedule, and no unlock of
theirs is refused. -/
theorem C133_one_mode (W : Nat → Mode) (p : Tid → Prog) (hp : ∀ t, (p t).ordered (fun _ => none)) (hw : ∀ t, (p t).waits W) (as : List (Tid × Bool)) (s : State)
    (es : List (Nat × Ev)) (h : runs step (State.init p) as = some (s, es)) :
    (∀ m w t, (m, .unlockRet w t false) ∉ es) ∧ ((∀ a, step s a = none) → ∀ t, s.prog t = .done ∧ s.cur t = none ∧ ∀ m, t ∉ (s.mu m).owners) :=
  ⟨fun m w t => C133_unlock_never_throws_partial p hp as s es (clean_of_waits W p hw as) h m w t,
   fun hst t => C133_no_deadlock_partial p hp as s es (clean_of_waits W p hw as) h hst t⟩

/-! ## Without the conditions -/

theorem other_step {s s' : State} {a : Tid × Bool} {es : List (Nat × Ev)} (h : step s a = some (s', es)) {u : Tid} (hu : u ≠ a.1) :
    s'.prog u = s.prog u ∧ s'.cur u = s.cur u := by
  simp only [step] at h
  (repeat' split at h) <;> cases h <;> simp [upd_other _ _ hu]

theorem other_runs {u : Tid} : ∀ (as : List (Tid × Bool)) {s s' : State} {es : List (Nat × Ev)}, (∀ a ∈ as, u ≠ a.1) → runs step s as = some (s', es) →
    s'.prog u = s.prog u ∧ s'.cur u = s.cur u := by
  intro as
  induction as with
  | nil => intro s s' es _ h; cases h; exact ⟨rfl, rfl⟩
  | cons a as ih =>
    intro s s' es ha h
    obtain ⟨s1, e1, e2, h1, h2, rfl⟩ := runs_cons h
    have h3 := ih (fun b hb => ha b (List.mem_cons_of_mem _ hb)) h2
    have h4 := other_step h1 (ha a List.mem_cons_self)
    exact ⟨h3.1.trans h4.1, h3.2.trans h4.2⟩

/-- `n` steps of a coroutine, the clock up. (Concerns co_shared_mutex.cpp:15-218.) -/
def go (t : Tid) (n : Nat) : List (Tid × Bool) := List.replicate n (t, true)

/-- A writer, a reader, a writer; one mutex, each locks and unlocks once. (Concerns co_shared_mutex.cpp:15-218.) -/
def wrw (t : Tid) : Prog :=
  if t = 0 then .lock .unique 0 (.unlock .unique 0 .done)
  else if t = 1 then .lock .shared 0 (.unlock .shared 0 .done)
  else if t = 2 then .lock .unique 0 (.unlock .unique 0 .done)
  else .done

theorem wrw_ordered (t : Tid) : (wrw t).ordered (fun _ => none) := by
  unfold wrw
  (repeat' split) <;> simp only [Prog.ordered, upd_apply] <;> grind

/-- **C133**: without the condition on the wake-ups it is false, even for one mutex that everybody locks and unlocks once: the writer that is inside leaves while a reader and a second writer are
asleep; the second writer is woken and stays in the queue, its `unlock()` throws, and the reader sleeps for ever. -/
theorem C133_ordered_deadlocks : (∀ t, (wrw t).ordered (fun _ => none)) ∧ ∃ as s es, runs step (State.init wrw) as = some (s, es) ∧ (∀ a, step s a = none) ∧
    (0, .unlockRet .unique 2 false) ∈ es ∧ s.prog 0 = .done ∧ s.prog 2 = .done ∧ s.cur 1 = some 0 ∧ (s.mu 0).pc 1 = .lkParked .shared ∧ (s.mu 0).asleep 1 = true := by
  refine ⟨wrw_ordered, ?_⟩
  have h : ∃ s es, runs step (State.init wrw) (go 0 4 ++ go 1 7 ++ go 2 7 ++ go 0 4 ++ go 2 8) = some (s, es) ∧
      (∀ b, step s (0, b) = none) ∧ (∀ b, step s (1, b) = none) ∧ (∀ b, step s (2, b) = none) ∧
      (0, .unlockRet .unique 2 false) ∈ es ∧ s.prog 0 = .done ∧ s.prog 2 = .done ∧ s.cur 1 = some 0 ∧ (s.mu 0).pc 1 = .lkParked .shared ∧ (s.mu 0).asleep 1 = true :=
    ⟨_, _, rfl, fun b => by cases b <;> rfl, fun b => by cases b <;> rfl, fun b => by cases b <;> rfl, by decide, rfl, rfl, rfl, rfl, rfl⟩
  obtain ⟨s, es, h1, h2, h3, h4, h5⟩ := h
  refine ⟨_, s, es, h1, fun ⟨t, b⟩ => ?_, h5⟩
  by_cases ht : t = 0
  · subst ht; exact h2 b
  · by_cases ht' : t = 1
    · subst ht'; exact h3 b
    · by_cases ht2 : t = 2
      · subst ht2; exact h4 b
      · obtain ⟨h5, h6⟩ := other_runs (u := t) _ (by simp [go, ht, ht', ht2]) h1
        have h7 : s.prog t = .done := by rw [h5]; simp [State.init, wrw, ht, ht', ht2]
        have h8 : s.cur t = none := by rw [h6]; rfl
        simp [step, h7, h8, Prog.first]

/-- Two coroutines, each of which gets a mutex for reading without waiting and then locks the mutex of the other for writing: in opposite order. (Concerns co_shared_mutex.cpp:15-218.) -/
def opposite (t : Tid) : Prog :=
  if t = 0 then .try .shared 0 (.lock .unique 1 (.unlock .unique 1 (.unlock .shared 0 .done))) .done
  else if t = 1 then .try .shared 1 (.lock .unique 0 (.unlock .unique 0 (.unlock .shared 1 .done))) .done else .done

/-- **C133**: and the order is needed, also among those that have what they have for reading: each asleep in `lock()`, what it waits for being read by the other. -/
theorem C133_opposite_deadlocks : (∀ t, (opposite t).waits (fun _ => .unique)) ∧ ∃ as s es, runs step (State.init opposite) as = some (s, es) ∧ (∀ a, step s a = none) ∧
    (s.mu 1).pc 0 = .lkParked .unique ∧ (s.mu 1).owners = [1] ∧ (s.mu 0).pc 1 = .lkParked .unique ∧ (s.mu 0).owners = [0] := by
  refine ⟨fun t => by unfold opposite; (repeat' split) <;> simp [Prog.waits], ?_⟩
  have h : ∃ s es, runs step (State.init opposite) (go 0 4 ++ go 1 4 ++ go 0 7 ++ go 1 7) = some (s, es) ∧ (∀ b, step s (0, b) = none) ∧ (∀ b, step s (1, b) = none) ∧
      (s.mu 1).pc 0 = .lkParked .unique ∧ (s.mu 1).owners = [1] ∧ (s.mu 0).pc 1 = .lkParked .unique ∧ (s.mu 0).owners = [0] :=
    ⟨_, _, rfl, fun b => by cases b <;> rfl, fun b => by cases b <;> rfl, rfl, rfl, rfl, rfl⟩
  obtain ⟨s, es, h1, h2, h3, h4⟩ := h
  refine ⟨_, s, es, h1, fun ⟨t, b⟩ => ?_, h4⟩
  by_cases ht : t = 0
  · subst ht; exact h2 b
  · by_cases ht' : t = 1
    · subst ht'; exact h3 b
    · obtain ⟨h5, h6⟩ := other_runs (u := t) _ (by simp [go, ht, ht']) h1
      have h7 : s.prog t = .done := by rw [h5]; simp [State.init, opposite, ht, ht']
      have h8 : s.cur t = none := by rw [h6]; rfl
      simp [step, h7, h8, Prog.first]

/-- `opposite` does not keep the discipline. -/
example : ¬ (∀ t, (opposite t).ordered (fun _ => none)) := by
  intro h
  have := (h 1).2.1.1 1 (by simp); omega

/-- Two readers and a writer: the readers lock mutex 0 for reading (mutex 0 is waited for only for reading), then mutex 1 for writing; the writer tries mutex 0, then locks 1 for writing. (Concerns co_shared_mutex.cpp:15-218.) -/
def mix (t : Tid) : Prog :=
  if t = 0 ∨ t = 1 then .lock .shared 0 (.lock .unique 1 (.unlock .shared 0 (.unlock .unique 1 .done)))
  else if t = 2 then .try .unique 0 (.lock .unique 1 (.unlock .unique 1 (.unlock .unique 0 .done))) (.lock .unique 1 (.unlock .unique 1 .done))
  else .done

/-- For reading: mutex 0; all others for writing. (Concerns co_shared_mutex.cpp:15-218.) -/
def mixW (m : Nat) : Mode := if m = 0 then .shared else .unique

theorem mix_ordered (t : Tid) : (mix t).ordered (fun _ => none) ∧ (mix t).waits mixW := by
  unfold mix
  (repeat' split) <;> simp only [Prog.ordered, Prog.waits, upd_apply, mixW] <;> grind

/-- The writer has got mutex 0, the readers sleep for it; both are woken at once, and both want mutex 1, which one gets. -/
example : (runs step (State.init mix) (go 2 4 ++ go 0 7 ++ go 1 7 ++ go 2 4 ++ go 2 8 ++ go 0 4 ++ go 1 4 ++ go 1 4 ++ go 0 7)).map
    (fun q => ((q.1.mu 0).owners, (q.1.mu 1).owners, q.1.cur 0, q.1.cur 1, (q.1.mu 1).asleep 0)) = some ([1, 0], [1], some 1, none, true) := by rfl

/-- The theorem for them: whatever the schedule, when none can make a step, all have finished, and it takes at most so many steps. -/
example (as : List (Tid × Bool)) (s : State) (es : List (Nat × Ev)) (h : runs step (State.init mix) as = some (s, es)) (hb : spins as = 0) :
    as.length ≤ 83 ∧ ((∀ a, step s a = none) → s.prog 2 = .done) := by
  refine ⟨?_, fun hst => ((C133_one_mode mixW mix (fun t => (mix_ordered t).1) (fun t => (mix_ordered t).2) as s es h).2 hst 2).1⟩
  have := C133_terminates_partial mix (fun t => (mix_ordered t).1) [0, 1, 2] (by decide) (fun u hu => by
    simp only [List.mem_cons, List.not_mem_nil, or_false, not_or] at hu
    simp [mix, hu]) as s es (clean_of_waits mixW mix (fun t => (mix_ordered t).2) as) h
  rw [hb, show sumOver [0, 1, 2] (fun t => (mix t).cost) = 83 by decide] at this
  exact this

end Verif.RwOrdered
