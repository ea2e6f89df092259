import Verif.Sync.RecMutexProps

/-! # C134: programs that lock several recursive mutexes

Any number of coroutines that execute programs of `lock()`, `unlock()` and `try_lock()` calls of any number of `co_recursive_mutex` objects, locking again what they have as often as they like.
Each mutex is the machine of `Verif/Sync/RecMutex.lean` (source/cocpp/sync/co_recursive_mutex.cpp:14-107), with its spinlock, owner, count, queue and sleep flags.

Left out: what the coroutines do between the calls. -/

namespace Verif.RecOrdered
open LockSpec

/-- The program of a coroutine: which calls it is still going to make; it decides by the result of `try_lock()` how to go on. (Programs of the user; the calls are co_recursive_mutex.cpp:14-107.) -/
inductive Prog
  | done
  | lock (m : Nat) (p : Prog)
  | unlock (m : Nat) (p : Prog)
  | try (m : Nat) (y n : Prog)
  deriving DecidableEq, Repr

/-- The discipline: `lock()` only a mutex one has already or one behind all mutexes one has; `try_lock()` any; `unlock()` what one has; in the end have none. `H`: how often one has each mutex. (A
condition on programs of the user.) (Concerns co_recursive_mutex.cpp:14-107.) -/
def Prog.ordered (H : Nat → Nat) : Prog → Prop
  | .done => ∀ m, H m = 0
  | .lock m p => (0 < H m ∨ ∀ k, 0 < H k → k < m) ∧ p.ordered (upd H m (H m + 1))
  | .unlock m p => 0 < H m ∧ p.ordered (upd H m (H m - 1))
  | .try m y n => y.ordered (upd H m (H m + 1)) ∧ n.ordered H

/-- The mutexes, the rest of each program (its first call included while the coroutine is inside it), and the mutex in whose call each coroutine is. (co_recursive_mutex.h:16-19.) -/
structure State where
  mu : Nat → RecMutex.St
  prog : Tid → Prog
  cur : Tid → Option Nat

/-- New mutexes (co_recursive_mutex.h:16-19), everybody at the beginning. -/
def State.init (p : Tid → Prog) : State := ⟨fun _ => RecMutex.St.init, p, fun _ => none⟩

/-- The rest of the program when the first call has returned; `got`: with the mutex. (co_recursive_mutex.cpp:65-77.) -/
def Prog.rest (got : Bool) : Prog → Prog
  | .done => .done
  | .lock _ p => p
  | .unlock _ p => p
  | .try _ y n => if got then y else n

/-- The mutex and the beginning of the first call of a program. (co_recursive_mutex.cpp:14-107.) -/
def Prog.first (t : Tid) : Prog → Option (Nat × RecMutex.Act)
  | .done => none
  | .lock m _ => some (m, .callLock t)
  | .unlock m _ => some (m, .callUnlock t)
  | .try m _ _ => some (m, .callTry t)

/-- One step of coroutine `a.1`: it begins its next call, or makes the next step inside the call (co_recursive_mutex.cpp:14-107, as in `RecMutex.step`); `a.2` is what the clock says. -/
def step (s : State) (a : Tid × Bool) : Option (State × List (Nat × Ev)) :=
  match s.cur a.1 with
  | none =>
    match (s.prog a.1).first a.1 with
    | none => none
    | some (m, c) =>
      match RecMutex.step (s.mu m) c with
      | none => none
      | some (x, es) => some (⟨upd s.mu m x, s.prog, upd s.cur a.1 (some m)⟩, es.map ((m, ·)))
  | some m =>
    match RecMutex.step (s.mu m) (.run a.1 a.2) with
    | none => none
    | some (x, es) =>
      if x.pc a.1 = .out then
        some (⟨upd s.mu m x, upd s.prog a.1 ((s.prog a.1).rest (decide (.acq a.1 ∈ es))), upd s.cur a.1 none⟩, es.map ((m, ·)))
      else some (⟨upd s.mu m x, s.prog, s.cur⟩, es.map ((m, ·)))

/-- Inside `lock()` (co_recursive_mutex.cpp:14-63). -/
def isLk : RecMutex.Pc → Bool
  | .lkAcq | .lkFast | .lkSpin | .lkYield | .lkReacq | .lkCheck | .lkLoop | .lkSleep | .lkParked | .lkReacq2 | .lkRet => true
  | _ => false

/-- Inside `try_lock()` (co_recursive_mutex.cpp:65-77). -/
def isTl : RecMutex.Pc → Bool
  | .tlAcq | .tlTest | .tlRet _ => true
  | _ => false

/-- Inside an `unlock()` of a mutex the caller had (co_recursive_mutex.cpp:79-107). -/
def isUl : RecMutex.Pc → Bool
  | .ulAcq true | .ulTest true | .ulRet true => true
  | _ => false

/-! ## One mutex -/

theorem run_other {x x' : RecMutex.St} {t u : Tid} {b : Bool} {es : List Ev} (h : RecMutex.step x (.run t b) = some (x', es)) (hu : u ≠ t) :
    x'.pc u = x.pc u ∧ x'.depth u = x.depth u := by
  simp only [RecMutex.step, RecMutex.runStep] at h
  cases hp : x.pc t <;> simp only [hp, RecMutex.St.acquire, RecMutex.St.goto, RecMutex.St.take] at h <;> (repeat' split at h) <;> cases h
  all_goals grind

theorem run_lk {x x' : RecMutex.St} {t : Tid} {b : Bool} {es : List Ev} (h : RecMutex.step x (.run t b) = some (x', es)) (hp : isLk (x.pc t) = true) :
    (isLk (x'.pc t) = true ∧ x'.depth = x.depth ∧ es = []) ∨ (x'.pc t = .out ∧ x'.depth = upd x.depth t (x.depth t + 1) ∧ es = [.acq t]) := by
  simp only [RecMutex.step, RecMutex.runStep] at h
  cases hq : x.pc t <;> simp only [hq, isLk, Bool.false_eq_true] at hp <;> simp only [hq, RecMutex.St.acquire, RecMutex.St.goto, RecMutex.St.take] at h <;> (repeat' split at h) <;> cases h
  all_goals simp [isLk]

theorem run_tl {x x' : RecMutex.St} {t : Tid} {b : Bool} {es : List Ev} (h : RecMutex.step x (.run t b) = some (x', es)) (hp : isTl (x.pc t) = true) :
    (isTl (x'.pc t) = true ∧ x'.depth = x.depth ∧ es = []) ∨ (x'.pc t = .out ∧ x'.depth = upd x.depth t (x.depth t + 1) ∧ es = [.acq t]) ∨
    (x'.pc t = .out ∧ x'.depth = x.depth ∧ es = [.tryFail t]) := by
  simp only [RecMutex.step, RecMutex.runStep] at h
  cases hq : x.pc t <;> simp only [hq, isTl, Bool.false_eq_true] at hp <;> simp only [hq, RecMutex.St.acquire, RecMutex.St.goto, RecMutex.St.take] at h <;> (repeat' split at h) <;> cases h
  all_goals first | simp [isTl] | (rename_i c; cases c <;> simp [isTl])

theorem run_ul {x x' : RecMutex.St} {t : Tid} {b : Bool} {es : List Ev} (hi : RecMutex.Inv x) (h : RecMutex.step x (.run t b) = some (x', es))
    (hp : isUl (x.pc t) = true) :
    (isUl (x'.pc t) = true ∧ x'.depth = x.depth ∧ es = []) ∨ (x'.pc t = .out ∧ x'.depth = x.depth ∧ es = [.unlockRet t true]) := by
  have hl := hi.loc t
  simp only [RecMutex.step, RecMutex.runStep] at h
  cases hq : x.pc t with
  | ulAcq c => cases c <;> simp only [hq, isUl, Bool.false_eq_true] at hp; simp only [hq, RecMutex.St.acquire] at h; split at h <;> cases h; simp [isUl]
  | ulTest c =>
    cases c <;> simp only [hq, isUl, Bool.false_eq_true] at hp
    simp only [hq, RecMutex.St.goto] at h
    simp only [RecMutex.Loc, hq, true_iff] at hl
    rw [if_pos hl.1] at h
    (repeat' split at h) <;> cases h <;> simp [isUl]
  | ulRet c => cases c <;> simp only [hq, isUl, Bool.false_eq_true] at hp; simp only [hq] at h; cases h; simp
  | _ => simp [hq, isUl] at hp

/-! ## Invariant -/

/-- What coroutine `t` has. (Concerns co_recursive_mutex.cpp:14-107.) -/
def State.has (s : State) (t : Tid) (m : Nat) : Nat := (s.mu m).depth t

/-- Where coroutine `t` is in the call of mutex `m`, and the discipline for the rest. (Concerns co_recursive_mutex.cpp:14-107.) -/
def Within (s : State) (t : Tid) (m : Nat) : Prog → Prop
  | .done => False
  | .lock k p => k = m ∧ isLk ((s.mu m).pc t) = true ∧ (0 < s.has t m ∨ ∀ j, 0 < s.has t j → j < m) ∧ p.ordered (upd (s.has t) m (s.has t m + 1))
  | .unlock k p => k = m ∧ isUl ((s.mu m).pc t) = true ∧ p.ordered (s.has t)
  | .try k y n => k = m ∧ isTl ((s.mu m).pc t) = true ∧ y.ordered (upd (s.has t) m (s.has t m + 1)) ∧ n.ordered (s.has t)

/-- Every mutex is in order, everybody is in the call its program is at, the discipline holds for the rest, and only finitely many mutexes were ever used. (Concerns co_recursive_mutex.cpp:14-107.) -/
structure Inv (s : State) : Prop where
  mu : ∀ m, RecMutex.Inv (s.mu m)
  own : ∀ t m, (s.mu m).pc t ≠ .out ↔ s.cur t = some m
  idle : ∀ t, s.cur t = none → (s.prog t).ordered (s.has t)
  busy : ∀ t m, s.cur t = some m → Within s t m (s.prog t)
  fin : ∃ B, ∀ m, B ≤ m → s.mu m = RecMutex.St.init

theorem inv_init (p : Tid → Prog) (hp : ∀ t, (p t).ordered (fun _ => 0)) : Inv (State.init p) := by
  refine ⟨fun m => RecMutex.inv_init, fun t m => ?_, fun t _ => hp t, fun t m h => ?_, 0, fun m _ => rfl⟩
  · simp [State.init, RecMutex.St.init]
  · simp [State.init] at h

theorem has_upd (s : State) (m : Nat) (x : RecMutex.St) (P : Tid → Prog) (c : Tid → Option Nat) (t : Tid) :
    State.has ⟨upd s.mu m x, P, c⟩ t = upd (s.has t) m (x.depth t) := by
  funext k
  simp only [State.has, upd_apply]
  split <;> rfl

theorem upd_has (s : State) (t : Tid) (m : Nat) (b : Nat) (h : b = (s.mu m).depth t) : upd (s.has t) m b = s.has t := by
  funext k
  simp only [upd_apply]
  split
  · rename_i hk; subst hk; rw [h]; rfl
  · rfl

theorem upd_upd {A : Type} (f : Nat → A) (m : Nat) (a b : A) : upd (upd f m a) m b = upd f m b := by
  funext k; simp only [upd_apply]; split <;> rfl

/-- What a coroutine that does not make the step has and where it is does not change. -/
theorem other_same {s : State} {u : Tid} {m : Nat} {x : RecMutex.St} {P : Tid → Prog} {c : Tid → Option Nat}
    (h1 : x.pc u = (s.mu m).pc u) (h2 : x.depth u = (s.mu m).depth u) :
    (∀ k, ((upd s.mu m x) k).pc u = (s.mu k).pc u) ∧ State.has ⟨upd s.mu m x, P, c⟩ u = s.has u := by
  refine ⟨fun k => ?_, ?_⟩
  · simp only [upd_apply]; split
    · rename_i hk; subst hk; exact h1
    · rfl
  · rw [has_upd]; exact upd_has s u m _ h2

theorem within_congr {s s' : State} {u : Tid} {m : Nat} {p : Prog} (h1 : (s'.mu m).pc u = (s.mu m).pc u) (h2 : s'.has u = s.has u)
    (h : Within s u m p) : Within s' u m p := by
  cases p <;> simp only [Within, h1, h2] at h ⊢ <;> exact h

theorem inv_step (s : State) (a : Tid × Bool) (s' : State) (es : List (Nat × Ev)) (hi : Inv s) (h : step s a = some (s', es)) : Inv s' := by
  obtain ⟨t, b⟩ := a
  obtain ⟨hmu, hown, hidle, hbusy, B, hB⟩ := hi
  simp only [step] at h
  cases hc : s.cur t with
  | none =>
    rw [hc] at h
    have hord := hidle t hc
    have hout : ∀ m, (s.mu m).pc t = .out := fun m => Decidable.byContradiction fun hn => by
      have := (hown t m).1 hn; rw [hc] at this; cases this
    simp only at h
    split at h
    · cases h
    · rename_i m c hf
      split at h
      · cases h
      · rename_i x es' hx
        simp only [Option.some.injEq, Prod.mk.injEq] at h
        obtain ⟨rfl, -⟩ := h
        have hxi := RecMutex.inv_step _ _ _ _ (hmu m) hx
        -- facts about the call
        have hoth : ∀ u, u ≠ t → x.pc u = (s.mu m).pc u ∧ x.depth u = (s.mu m).depth u := by
          intro u hu
          cases hp : s.prog t <;> simp only [hp, Prog.first, Option.some.injEq, Prod.mk.injEq, reduceCtorEq] at hf <;>
            obtain ⟨rfl, rfl⟩ := hf <;> simp only [RecMutex.step, RecMutex.St.goto] at hx <;> split at hx <;> cases hx <;> simp [hu]
        have hme : Within ⟨upd s.mu m x, s.prog, upd s.cur t (some m)⟩ t m (s.prog t) ∧ x.pc t ≠ .out := by
          cases hp : s.prog t with
          | done => simp [hp, Prog.first] at hf
          | lock k p =>
            simp only [hp, Prog.first, Option.some.injEq, Prod.mk.injEq] at hf
            obtain ⟨rfl, rfl⟩ := hf
            simp only [RecMutex.step, RecMutex.St.goto] at hx
            split at hx <;> cases hx
            rw [hp] at hord
            refine ⟨⟨rfl, by simp [isLk], ?_, ?_⟩, by simp⟩ <;> rw [has_upd, upd_has s t k _ rfl]
            · exact hord.1
            · exact hord.2
          | unlock k p =>
            simp only [hp, Prog.first, Option.some.injEq, Prod.mk.injEq] at hf
            obtain ⟨rfl, rfl⟩ := hf
            simp only [RecMutex.step] at hx
            split at hx <;> cases hx
            rw [hp] at hord
            have hh : 0 < (s.mu k).depth t := hord.1
            have hh' : (s.mu k).depth t ≠ 0 := by omega
            refine ⟨⟨rfl, by simp [isUl, hh'], ?_⟩, by simp⟩
            rw [has_upd]; simp only [upd_same]; exact hord.2
          | «try» k y n =>
            simp only [hp, Prog.first, Option.some.injEq, Prod.mk.injEq] at hf
            obtain ⟨rfl, rfl⟩ := hf
            simp only [RecMutex.step, RecMutex.St.goto] at hx
            split at hx <;> cases hx
            rw [hp] at hord
            refine ⟨⟨rfl, by simp [isTl], ?_⟩, by simp⟩
            rw [has_upd, upd_has s t k _ rfl]; exact hord
        refine ⟨fun k => ?_, fun u k => ?_, fun u hu => ?_, fun u k hu => ?_, max B (m + 1), fun k hk => ?_⟩
        · simp only [upd_apply]; split
          · exact hxi
          · exact hmu k
        · by_cases hu : u = t
          · subst hu
            simp only [upd_apply, if_true, Option.some.injEq]
            split
            · rename_i hk; subst hk; simpa using hme.2
            · rename_i hk; simp [hout k]; exact fun h => hk h.symm
          · rw [(other_same (P := s.prog) (c := s.cur) (hoth u hu).1 (hoth u hu).2).1 k]
            simpa [upd_apply, hu] using hown u k
        · by_cases hut : u = t
          · subst hut; simp at hu
          · simp only [upd_other _ _ hut] at hu
            rw [(other_same (hoth u hut).1 (hoth u hut).2).2]; exact hidle u hu
        · by_cases hut : u = t
          · subst hut
            simp only [upd_same, Option.some.injEq] at hu
            subst hu; exact hme.1
          · simp only [upd_other _ _ hut] at hu
            have ho := other_same (P := s.prog) (c := upd s.cur t (some m)) (hoth u hut).1 (hoth u hut).2
            exact within_congr (ho.1 k) ho.2 (hbusy u k hu)
        · simp only [upd_apply]; split
          · rename_i hkm; exact absurd (show (k : Nat) = m from hkm) (by omega)
          · exact hB k (by omega)
  | some m =>
    rw [hc] at h
    simp only at h
    have hw := hbusy t m hc
    split at h
    · cases h
    · rename_i x es' hx
      have hxi := RecMutex.inv_step _ _ _ _ (hmu m) hx
      have hoth : ∀ u, u ≠ t → x.pc u = (s.mu m).pc u ∧ x.depth u = (s.mu m).depth u := fun u hu => run_other hx hu
      have hoth2 : ∀ k, k ≠ m → (s.mu k).pc t = .out := fun k hk => Decidable.byContradiction fun hn => by
        have := (hown t k).1 hn; rw [hc, Option.some.injEq] at this; exact hk this.symm
      have hfin : ∀ P c, ∃ B, ∀ k, B ≤ k → (State.mk (upd s.mu m x) P c).mu k = RecMutex.St.init := by
        intro P c
        refine ⟨max B (m + 1), fun k hk => ?_⟩
        simp only [upd_apply]; split
        · rename_i hkm; exact absurd (show (k : Nat) = m from hkm) (by omega)
        · exact hB k (by omega)
      have hmu' : ∀ k, RecMutex.Inv ((upd s.mu m x) k) := by
        intro k; simp only [upd_apply]; split
        · exact hxi
        · exact hmu k
      split at h
      · rename_i hout
        simp only [Option.some.injEq, Prod.mk.injEq] at h
        obtain ⟨rfl, -⟩ := h
        refine ⟨hmu', fun u k => ?_, fun u hu => ?_, fun u k hu => ?_, hfin _ _⟩
        · by_cases hut : u = t
          · subst hut
            simp only [upd_same, reduceCtorEq, iff_false, ne_eq, Decidable.not_not, upd_apply]
            split
            · exact hout
            · rename_i hk; exact hoth2 k hk
          · rw [(other_same (P := s.prog) (c := s.cur) (hoth u hut).1 (hoth u hut).2).1 k]
            simpa [upd_apply, hut] using hown u k
        · by_cases hut : u = t
          · subst hut
            rw [has_upd]
            simp only [upd_same]
            cases hp : s.prog u with
            | done => rw [hp] at hw; exact hw.elim
            | lock k p =>
              rw [hp] at hw
              obtain ⟨rfl, h1, h2, h3⟩ := hw
              rcases run_lk hx h1 with ⟨h4, _⟩ | ⟨_, h5, rfl⟩
              · rw [hout] at h4; cases h4
              · rw [h5, upd_same]; exact h3
            | unlock k p =>
              rw [hp] at hw
              obtain ⟨rfl, h1, h2⟩ := hw
              rcases run_ul (hmu k) hx h1 with ⟨h4, _⟩ | ⟨_, h5, rfl⟩
              · rw [hout] at h4; cases h4
              · rw [h5, upd_has s u k _ rfl]; simpa [Prog.rest] using h2
            | «try» k y n =>
              rw [hp] at hw
              obtain ⟨rfl, h1, h3, h4⟩ := hw
              rcases run_tl hx h1 with ⟨h5, _⟩ | ⟨_, h5, rfl⟩ | ⟨_, h5, rfl⟩
              · rw [hout] at h5; cases h5
              · rw [h5, upd_same]; simp only [Prog.rest, List.mem_singleton, decide_true, if_true]; exact h3
              · rw [h5, upd_has s u k _ rfl]; simpa [Prog.rest] using h4
          · simp only [upd_other _ _ hut] at hu ⊢
            rw [(other_same (hoth u hut).1 (hoth u hut).2).2]; exact hidle u hu
        · by_cases hut : u = t
          · subst hut; simp at hu
          · simp only [upd_other _ _ hut] at hu ⊢
            have ho := other_same (P := upd s.prog t ((s.prog t).rest (decide (Ev.acq t ∈ es')))) (c := upd s.cur t none) (hoth u hut).1 (hoth u hut).2
            exact within_congr (ho.1 k) ho.2 (hbusy u k hu)
      · rename_i hout
        simp only [Option.some.injEq, Prod.mk.injEq] at h
        obtain ⟨rfl, -⟩ := h
        refine ⟨hmu', fun u k => ?_, fun u hu => ?_, fun u k hu => ?_, hfin _ _⟩
        · by_cases hut : u = t
          · subst hut
            simp only [hc, upd_apply, Option.some.injEq]
            split
            · rename_i hk; subst hk; simpa using hout
            · rename_i hk; simp [hoth2 k hk]; exact fun h => hk h.symm
          · rw [(other_same (P := s.prog) (c := s.cur) (hoth u hut).1 (hoth u hut).2).1 k]
            exact hown u k
        · have hut : u ≠ t := by rintro rfl; simp only [hc] at hu; cases hu
          rw [(other_same (hoth u hut).1 (hoth u hut).2).2]; exact hidle u hu
        · by_cases hut : u = t
          · subst hut
            simp only [hc, Option.some.injEq] at hu
            subst hu
            have hhas : x.depth = (s.mu m).depth → State.has ⟨upd s.mu m x, s.prog, s.cur⟩ u = s.has u := fun he => by
              rw [has_upd, he]; exact upd_has s u m _ rfl
            cases hp : s.prog u with
            | done => rw [hp] at hw; exact hw.elim
            | lock k p =>
              rw [hp] at hw
              obtain ⟨rfl, h1, h2, h3⟩ := hw
              rcases run_lk hx h1 with ⟨h4, h5, _⟩ | ⟨h4, _⟩
              · refine ⟨rfl, by simpa using h4, ?_⟩; rw [hhas h5]; exact ⟨h2, h3⟩
              · exact absurd h4 hout
            | unlock k p =>
              rw [hp] at hw
              obtain ⟨rfl, h1, h2⟩ := hw
              rcases run_ul (hmu k) hx h1 with ⟨h4, h5, _⟩ | ⟨h4, _⟩
              · refine ⟨rfl, by simpa using h4, ?_⟩; rw [hhas h5]; exact h2
              · exact absurd h4 hout
            | «try» k y n =>
              rw [hp] at hw
              obtain ⟨rfl, h1, h3, h4⟩ := hw
              rcases run_tl hx h1 with ⟨h6, h5, _⟩ | ⟨h6, _⟩ | ⟨h6, _⟩
              · refine ⟨rfl, by simpa using h6, ?_⟩; rw [hhas h5]; exact ⟨h3, h4⟩
              · exact absurd h6 hout
              · exact absurd h6 hout
          · have ho := other_same (P := s.prog) (c := s.cur) (hoth u hut).1 (hoth u hut).2
            exact within_congr (ho.1 k) ho.2 (hbusy u k hu)

theorem inv_reach {p : Tid → Prog} (hp : ∀ t, (p t).ordered (fun _ => 0)) {as : List (Tid × Bool)} {s : State} {es : List (Nat × Ev)}
    (h : runs step (State.init p) as = some (s, es)) : Inv s :=
  runs_inv Inv inv_step as _ _ _ (inv_init p hp) h

theorem run_out {x : RecMutex.St} {t : Tid} (b : Bool) (h : x.pc t = .out) : RecMutex.step x (.run t b) = none := by
  simp [RecMutex.step, RecMutex.runStep, h]

/-- Who is not inside a call and has not finished can begin the next call. -/
theorem can_begin {s : State} (hi : Inv s) {t : Tid} (b : Bool) (hc : s.cur t = none) (h : step s (t, b) = none) : s.prog t = .done := by
  have hout : ∀ m, (s.mu m).pc t = .out := fun m => Decidable.byContradiction fun hn => by
    have := (hi.own t m).1 hn; rw [hc] at this; cases this
  cases hp : s.prog t with
  | done => rfl
  | lock m p =>
    simp [step, hc, hp, Prog.first, RecMutex.step, hout] at h
  | unlock m p => simp [step, hc, hp, Prog.first, RecMutex.step, hout] at h
  | «try» m y n =>
    simp [step, hc, hp, Prog.first, RecMutex.step, hout] at h

/-- When nobody can make a step, nobody is inside a call. -/
theorem nobody_inside {s : State} (hi : Inv s) (hst : ∀ a, step s a = none) : ∀ t, s.cur t = none := by
  obtain ⟨B, hB⟩ := hi.fin
  have hmst : ∀ m t b, RecMutex.step (s.mu m) (.run t b) = none := by
    intro m t b
    cases hp : RecMutex.step (s.mu m) (.run t b) with
    | none => rfl
    | some q =>
      exfalso
      have hne : (s.mu m).pc t ≠ .out := fun ho => by rw [run_out b ho] at hp; cases hp
      have hc := (hi.own t m).1 hne
      have := hst (t, b)
      simp only [step, hc, hp] at this
      split at this <;> cases this
  have key : ∀ n m t, n + m = B → s.cur t = some m → False := by
    intro n
    induction n using Nat.strongRecOn with
    | ind n ih =>
      intro m t hn hc
      obtain ⟨_, _, u, _, hu, ho⟩ := RecMutex.stuck _ (hi.mu m) (hmst m) t ((hi.own t m).2 hc)
      cases hcu : s.cur u with
      | none =>
        have hd := can_begin hi false hcu (hst (u, false))
        have := hi.idle u hcu
        rw [hd] at this
        have h2 : (s.mu m).depth u = 0 := this m
        omega
      | some k =>
        have hne := (hi.own u k).2 hcu
        obtain ⟨hpk, _⟩ := RecMutex.stuck _ (hi.mu k) (hmst k) u hne
        have hkB : k < B := Decidable.byContradiction fun hge => by
          rw [hB k (by omega)] at hne; exact hne rfl
        have hw := hi.busy u k hcu
        have hmk : m < k := by
          cases hp : s.prog u with
          | done => rw [hp] at hw; exact hw.elim
          | lock j q =>
            rw [hp] at hw
            have hl := (hi.mu k).loc u
            simp only [RecMutex.Loc, hpk] at hl
            rcases hw.2.2.1 with h0 | h0
            · simp only [State.has, hl.1] at h0; omega
            · exact h0 m hu
          | unlock j q => rw [hp] at hw; have := hw.2.1; rw [hpk] at this; cases this
          | «try» j y q => rw [hp] at hw; have := hw.2.1; rw [hpk] at this; cases this
        exact ih (B - k) (by omega) k u (by omega) hcu
  intro t
  cases hc : s.cur t with
  | none => rfl
  | some m =>
    have hne := (hi.own t m).2 hc
    have hmB : m < B := Decidable.byContradiction fun hge => by
      rw [hB m (by omega)] at hne; exact hne rfl
    exact (key (B - m) m t (by omega) hc).elim

/-- **C134**: if everybody locks in one and the same order (`try_lock()` and locking again excepted) and unlocks what it has as often as it locked it, there is no deadlock: in every state that can be reached in which nobody can make a
step, everybody has finished its program, and no mutex is owned. -/
theorem C134_no_deadlock (p : Tid → Prog) (hp : ∀ t, (p t).ordered (fun _ => 0)) (as : List (Tid × Bool)) (s : State) (es : List (Nat × Ev))
    (h : runs step (State.init p) as = some (s, es)) (hst : ∀ a, step s a = none) (t : Tid) :
    s.prog t = .done ∧ s.cur t = none ∧ ∀ m, (s.mu m).owner ≠ some t := by
  have hi := inv_reach hp h
  have hc := nobody_inside hi hst
  have hd := can_begin hi false (hc t) (hst (t, false))
  refine ⟨hd, hc t, fun m ho => ?_⟩
  have hl := (hi.mu m).loc t
  have hout : (s.mu m).pc t = .out := Decidable.byContradiction fun hn => by
    have := (hi.own t m).1 hn; rw [hc t] at this; cases this
  have hn := hi.idle t (hc t)
  rw [hd] at hn
  have hn : (s.mu m).depth t = 0 := hn m
  simp only [RecMutex.Loc, hout] at hl
  grind

theorem step_throws {s s' : State} {a : Tid × Bool} {es : List (Nat × Ev)} (hi : Inv s) (h : step s a = some (s', es)) (m : Nat) (t : Tid) :
    (m, .unlockRet t false) ∉ es := by
  obtain ⟨u, b⟩ := a
  simp only [step] at h
  cases hc : s.cur u with
  | none =>
    rw [hc] at h
    cases hp : s.prog u <;> simp only [hp, Prog.first, RecMutex.step] at h
    · cases h
    all_goals split at h
    all_goals try cases h
    all_goals rename_i hx
    all_goals split at hx <;> cases hx <;> simp
  | some k =>
    rw [hc] at h
    have hw := hi.busy u k hc
    simp only at h
    split at h
    · cases h
    · rename_i x es' hx
      have hes : es = es'.map ((k, ·)) := by split at h <;> cases h <;> rfl
      have h2 : ∀ v, Ev.unlockRet v false ∉ es' := by
        intro v
        cases hp : s.prog u with
        | done => rw [hp] at hw; exact hw.elim
        | lock j q => rw [hp] at hw; rcases run_lk hx hw.2.1 with h | h <;> simp [h.2.2]
        | unlock j q => rw [hp] at hw; rcases run_ul (hi.mu k) hx hw.2.1 with h | h <;> simp [h.2.2]
        | «try» j y n => rw [hp] at hw; rcases run_tl hx hw.2.1 with h | h | h <;> simp [h.2.2]
      rw [hes]
      simp only [List.mem_map, Prod.mk.injEq, not_exists, not_and]
      rintro e he rfl rfl
      exact h2 t he

/-- **C134**: no `unlock()` of such a program is refused. -/
theorem C134_unlock_never_throws (p : Tid → Prog) (hp : ∀ t, (p t).ordered (fun _ => 0)) (as : List (Tid × Bool)) (s : State) (es : List (Nat × Ev))
    (h : runs step (State.init p) as = some (s, es)) (m : Nat) (t : Tid) : (m, .unlockRet t false) ∉ es := by
  have hi := inv_init p hp
  clear hp
  generalize State.init p = s0 at h hi
  induction as generalizing s0 es with
  | nil =>
    simp only [runs, Option.some.injEq, Prod.mk.injEq] at h
    rw [← h.2]; exact List.not_mem_nil
  | cons a as ih =>
    obtain ⟨s1, e1, e2, h1, h2, rfl⟩ := runs_cons h
    have h3 := ih _ _ h2 (inv_step _ _ _ _ hi h1)
    rw [List.mem_append]
    exact fun hm => hm.elim (fun hm => step_throws hi h1 m t hm) h3

/-! ## An end -/

/-- An upper bound for the steps of a program when the clock is always up. (Concerns co_recursive_mutex.cpp:14-107.) -/
def Prog.cost : Prog → Nat
  | .done => 0
  | .lock _ p => 11 + p.cost
  | .unlock _ p => 4 + p.cost
  | .try _ y n => 4 + max y.cost n.cost

/-- What is left behind the current call. (Concerns co_recursive_mutex.cpp:14-107.) -/
def Prog.costRest : Prog → Nat
  | .done => 0
  | .lock _ p => p.cost
  | .unlock _ p => p.cost
  | .try _ y n => max y.cost n.cost

/-- What coroutine `t` still has to do. (Concerns co_recursive_mutex.cpp:14-107.) -/
def State.left (s : State) (t : Tid) : Nat :=
  match s.cur t with
  | none => (s.prog t).cost
  | some m => RecMutex.rank (s.mu m) t + (s.prog t).costRest

theorem rest_cost (p : Prog) (b : Bool) : (p.rest b).cost ≤ p.costRest := by
  cases p <;> simp only [Prog.rest, Prog.costRest, Prog.cost] <;> grind

theorem left_step {s s' : State} {t : Tid} {b : Bool} {es : List (Nat × Ev)} (hi : Inv s) (h : step s (t, b) = some (s', es)) :
    (∀ u, u ≠ t → s'.left u = s.left u ∧ s'.prog u = s.prog u ∧ s'.cur u = s.cur u) ∧ s'.left t + 1 ≤ s.left t + (if b then 0 else 3) := by
  simp only [step] at h
  cases hc : s.cur t with
  | none =>
    rw [hc] at h
    have hout : ∀ m, (s.mu m).pc t = .out := fun m => Decidable.byContradiction fun hn => by
      have := (hi.own t m).1 hn; rw [hc] at this; cases this
    simp only at h
    split at h
    · cases h
    · rename_i m c hf
      split at h
      · cases h
      · rename_i x es' hx
        simp only [Option.some.injEq, Prod.mk.injEq] at h
        obtain ⟨rfl, -⟩ := h
        refine ⟨fun u hu => ⟨?_, rfl, upd_other _ _ hu⟩, ?_⟩
        · have hoth : x.pc u = (s.mu m).pc u ∧ x.owner = (s.mu m).owner := by
            cases hp : s.prog t <;> simp only [hp, Prog.first, Option.some.injEq, Prod.mk.injEq, reduceCtorEq] at hf <;>
              obtain ⟨rfl, rfl⟩ := hf <;> simp only [RecMutex.step, RecMutex.St.goto] at hx <;> split at hx <;> cases hx <;> simp [hu]
          simp only [State.left, upd_other _ _ hu]
          split
          · rfl
          · rename_i k _
            congr 1
            by_cases hk : k = m
            · subst hk; rw [upd_same]; simp only [RecMutex.rank, hoth.1, hoth.2]
            · rw [upd_other _ _ hk]
        · simp only [State.left, upd_same, hc]
          cases hp : s.prog t <;> simp only [hp, Prog.first, Option.some.injEq, Prod.mk.injEq, reduceCtorEq] at hf <;>
            obtain ⟨rfl, rfl⟩ := hf <;> simp only [RecMutex.step, RecMutex.St.goto] at hx <;> split at hx <;> cases hx <;>
            simp only [RecMutex.rank, upd_same, Prog.cost, Prog.costRest] <;> omega
  | some m =>
    rw [hc] at h
    simp only at h
    split at h
    · cases h
    · rename_i x es' hx
      have hr := RecMutex.rank_step _ _ _ _ _ (hi.mu m) hx
      have hoth : ∀ P c u, u ≠ t → c u = s.cur u → P u = s.prog u → State.left ⟨upd s.mu m x, P, c⟩ u = s.left u := by
        intro P c u hu h1 h2
        simp only [State.left, h1, h2]
        split
        · rfl
        · rename_i k _
          congr 1
          by_cases hk : k = m
          · subst hk; rw [upd_same]; exact (hr.1 u hu).1
          · rw [upd_other _ _ hk]
      split at h
      · rename_i hout
        simp only [Option.some.injEq, Prod.mk.injEq] at h
        obtain ⟨rfl, -⟩ := h
        refine ⟨fun u hu => ⟨hoth _ _ u hu (upd_other _ _ hu) (upd_other _ _ hu), upd_other _ _ hu, upd_other _ _ hu⟩, ?_⟩
        have h2 := rest_cost (s.prog t) (decide (Ev.acq t ∈ es'))
        have h3 := hr.2
        simp only [State.left, upd_same, hc]
        have : RecMutex.rank x t = 0 := by simp [RecMutex.rank, hout]
        omega
      · simp only [Option.some.injEq, Prod.mk.injEq] at h
        obtain ⟨rfl, -⟩ := h
        refine ⟨fun u hu => ⟨hoth _ _ u hu rfl rfl, rfl, rfl⟩, ?_⟩
        have h3 := hr.2
        simp only [State.left, upd_same, hc]
        omega

/-- How often in a schedule the clock is not up yet. (Concerns co_recursive_mutex.cpp:14-107.) -/
def spins (as : List (Tid × Bool)) : Nat := as.countP fun a => !a.2

theorem bounded (L : List Tid) (hn : L.Nodup) (as : List (Tid × Bool)) : ∀ (s s' : State) (es : List (Nat × Ev)), Inv s →
    (∀ u, u ∉ L → s.prog u = .done ∧ s.cur u = none) → runs step s as = some (s', es) →
    as.length + sumOver L s'.left ≤ sumOver L s.left + 3 * spins as := by
  induction as with
  | nil =>
    intro s s' es _ _ h
    simp only [runs, Option.some.injEq, Prod.mk.injEq] at h
    simp [h.1]
  | cons a as ih =>
    intro s s' es hi hL h
    obtain ⟨t, b⟩ := a
    obtain ⟨s1, e1, e2, h1, h2, rfl⟩ := runs_cons h
    have hr := left_step hi h1
    have ht : t ∈ L := by
      apply Decidable.byContradiction
      intro htL
      obtain ⟨h3, h4⟩ := hL t htL
      simp [step, h3, h4, Prog.first] at h1
    have h3 := ih s1 s' e2 (inv_step _ _ _ _ hi h1) (fun u hu => by
      have hut : u ≠ t := by rintro rfl; exact hu ht
      rw [(hr.1 u hut).2.1, (hr.1 u hut).2.2]; exact hL u hu) h2
    have h4 := sumOver_single (f := s1.left) (g := s.left) hn ht (fun u hu => (hr.1 u hu).1)
    have h5 := hr.2
    simp only [List.length_cons, spins, List.countP_cons] at h3 ⊢
    cases b <;> simp at h5 ⊢ <;> omega

/-- **C134**: and there is an end: between the first step and the last are at most so many steps as the programs have (at most eleven for each `lock()`, four for each `unlock()` or `try_lock()`),
and three for each time a coroutine that looks at the clock finds that it should spin on. -/
theorem C134_terminates (p : Tid → Prog) (hp : ∀ t, (p t).ordered (fun _ => 0)) (L : List Tid) (hn : L.Nodup) (hL : ∀ u, u ∉ L → p u = .done)
    (as : List (Tid × Bool)) (s : State) (es : List (Nat × Ev)) (h : runs step (State.init p) as = some (s, es)) :
    as.length ≤ sumOver L (fun t => (p t).cost) + 3 * spins as := by
  have := bounded L hn as _ _ _ (inv_init p hp) (fun u hu => ⟨hL u hu, rfl⟩) h
  have h2 : (State.init p).left = fun t => (p t).cost := rfl
  rw [h2] at this
  omega

/-! ## Without the discipline -/

theorem other_step {s s' : State} {a : Tid × Bool} {es : List (Nat × Ev)} (h : step s a = some (s', es)) {u : Tid} (hu : u ≠ a.1) :
    s'.prog u = s.prog u ∧ s'.cur u = s.cur u := by
  simp only [step] at h
  (repeat' split at h) <;> cases h <;> simp [upd_other _ _ hu]

theorem other_runs {u : Tid} : ∀ (as : List (Tid × Bool)) {s s' : State} {es : List (Nat × Ev)}, (∀ a ∈ as, u ≠ a.1) → runs step s as = some (s', es) →
    s'.prog u = s.prog u ∧ s'.cur u = s.cur u := by
  intro as
  induction as with
  | nil => intro s s' es _ h; cases h; exact ⟨rfl, rfl⟩
  | cons a as ih =>
    intro s s' es ha h
    obtain ⟨s1, e1, e2, h1, h2, rfl⟩ := runs_cons h
    have h3 := ih (fun b hb => ha b (List.mem_cons_of_mem _ hb)) h2
    have h4 := other_step h1 (ha a List.mem_cons_self)
    exact ⟨h3.1.trans h4.1, h3.2.trans h4.2⟩

/-- Two coroutines that lock two mutexes in opposite order, and unlock. (Concerns co_recursive_mutex.cpp:14-107.) -/
def opposite (t : Tid) : Prog :=
  if t = 0 then .lock 0 (.lock 1 (.unlock 1 (.unlock 0 .done))) else if t = 1 then .lock 1 (.lock 0 (.unlock 0 (.unlock 1 .done))) else .done

/-- Two coroutines that lock one mutex; the first does not unlock it. (Concerns co_recursive_mutex.cpp:14-107.) -/
def kept (t : Tid) : Prog := if t = 0 then .lock 0 .done else if t = 1 then .lock 0 (.unlock 0 .done) else .done

/-- `n` steps of a coroutine, the clock up. (Concerns co_recursive_mutex.cpp:14-107.) -/
def go (t : Tid) (n : Nat) : List (Tid × Bool) := List.replicate n (t, true)

/-- **C134**: the order is needed: of two coroutines that lock two mutexes in opposite order and unlock both, it can be that neither makes a step any more, each asleep in `lock()` with what the
other waits for. -/
theorem C134_opposite_deadlocks : ∃ as s es, runs step (State.init opposite) as = some (s, es) ∧ (∀ a, step s a = none) ∧
    (s.mu 1).pc 0 = .lkParked ∧ (s.mu 1).owner = some 1 ∧ (s.mu 0).pc 1 = .lkParked ∧ (s.mu 0).owner = some 0 := by
  have h : ∃ s es, runs step (State.init opposite) (go 0 4 ++ go 1 4 ++ go 0 7 ++ go 1 7) = some (s, es) ∧ (∀ b, step s (0, b) = none) ∧ (∀ b, step s (1, b) = none) ∧
      (s.mu 1).pc 0 = .lkParked ∧ (s.mu 1).owner = some 1 ∧ (s.mu 0).pc 1 = .lkParked ∧ (s.mu 0).owner = some 0 :=
    ⟨_, _, rfl, fun b => by cases b <;> rfl, fun b => by cases b <;> rfl, rfl, rfl, rfl, rfl⟩
  obtain ⟨s, es, h1, h2, h3, h4⟩ := h
  refine ⟨_, s, es, h1, fun ⟨t, b⟩ => ?_, h4⟩
  by_cases ht : t = 0
  · subst ht; exact h2 b
  · by_cases ht' : t = 1
    · subst ht'; exact h3 b
    · obtain ⟨h5, h6⟩ := other_runs (u := t) _ (by simp [go, ht, ht']) h1
      have h7 : s.prog t = .done := by rw [h5]; simp [State.init, opposite, ht, ht']
      have h8 : s.cur t = none := by rw [h6]; rfl
      simp [step, h7, h8, Prog.first]

/-- **C134**: nor may a program end with a mutex: who waits for it sleeps for ever. -/
theorem C134_kept_blocks : ∃ as s es, runs step (State.init kept) as = some (s, es) ∧ (∀ a, step s a = none) ∧
    (s.mu 0).pc 1 = .lkParked ∧ (s.mu 0).owner = some 0 ∧ s.prog 0 = .done := by
  have h : ∃ s es, runs step (State.init kept) (go 0 4 ++ go 1 7) = some (s, es) ∧ (∀ b, step s (0, b) = none) ∧ (∀ b, step s (1, b) = none) ∧
      (s.mu 0).pc 1 = .lkParked ∧ (s.mu 0).owner = some 0 ∧ s.prog 0 = .done :=
    ⟨_, _, rfl, fun b => by cases b <;> rfl, fun b => by cases b <;> rfl, rfl, rfl, rfl⟩
  obtain ⟨s, es, h1, h2, h3, h4⟩ := h
  refine ⟨_, s, es, h1, fun ⟨t, b⟩ => ?_, h4⟩
  by_cases ht : t = 0
  · subst ht; exact h2 b
  · by_cases ht' : t = 1
    · subst ht'; exact h3 b
    · obtain ⟨h5, h6⟩ := other_runs (u := t) _ (by simp [go, ht, ht']) h1
      have h7 : s.prog t = .done := by rw [h5]; simp [State.init, kept, ht, ht']
      have h8 : s.cur t = none := by rw [h6]; rfl
      simp [step, h7, h8, Prog.first]

/-- Neither of the two keeps the discipline. -/
example : ¬ (∀ t, (opposite t).ordered (fun _ => 0)) ∧ ¬ (∀ t, (kept t).ordered (fun _ => 0)) := by
  refine ⟨fun h => ?_, fun h => ?_⟩
  · rcases (h 1).2.1 with h0 | h0
    · simp at h0
    · have := h0 1 (by simp); omega
  · have := (h 0).2 0; simp at this

/-- The discipline does not have to be kept by locking again: the second `lock()` of mutex 0 comes when the coroutine has mutex 1. And `try_lock()` may go back. (Concerns co_recursive_mutex.cpp:14-107.) -/
def nested (t : Tid) : Prog :=
  if t = 0 then .lock 0 (.lock 1 (.lock 0 (.unlock 0 (.unlock 1 (.unlock 0 .done)))))
  else if t = 1 then .lock 1 (.lock 1 (.try 0 (.unlock 0 (.unlock 1 (.unlock 1 .done))) (.unlock 1 (.unlock 1 .done))))
  else .done

theorem nested_ordered (t : Tid) : (nested t).ordered (fun _ => 0) := by
  unfold nested
  (repeat' split) <;> simp only [Prog.ordered, upd_apply] <;> grind

/-- In between: the first has mutex 0, the second has mutex 1 twice; the first sleeps for mutex 1, the second does not get 0. -/
example : (runs step (State.init nested) (go 0 4 ++ go 1 8 ++ go 0 7 ++ go 1 4)).map (fun q => ((q.1.mu 0).owner, (q.1.mu 1).owner, (q.1.mu 1).count, (q.1.mu 1).asleep 0, q.1.prog 1)) =
    some (some 0, some 1, 2, true, .unlock 1 (.unlock 1 .done)) := by rfl

/-- Then all finish: 51 steps; the bound is 83. -/
example : ∃ s es, runs step (State.init nested) (go 0 4 ++ go 1 8 ++ go 0 7 ++ go 1 4 ++ go 1 8 ++ go 0 20) = some (s, es) ∧
    s.prog 0 = .done ∧ s.prog 1 = .done ∧ sumOver [0, 1] (fun t => (nested t).cost) = 83 := ⟨_, _, rfl, rfl, rfl, by decide⟩

/-- The theorems for the two: no schedule without spinning is longer than 83 steps, and when none of them can make a step, all have finished. -/
example (as : List (Tid × Bool)) (s : State) (es : List (Nat × Ev)) (h : runs step (State.init nested) as = some (s, es)) (hb : spins as = 0) :
    as.length ≤ 83 ∧ ((∀ a, step s a = none) → s.prog 1 = .done) := by
  refine ⟨?_, fun hst => (C134_no_deadlock nested nested_ordered as s es h hst 1).1⟩
  have := C134_terminates nested nested_ordered [0, 1] (by decide) (fun u hu => by
    simp only [List.mem_cons, List.not_mem_nil, or_false, not_or] at hu
    simp [nested, hu]) as s es h
  rw [hb, show sumOver [0, 1] (fun t => (nested t).cost) = 83 by decide] at this
  exact this

end Verif.RecOrdered
