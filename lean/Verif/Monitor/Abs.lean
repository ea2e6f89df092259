import Verif.Base.Lts

/-!
# Monitors, abstractly: critical sections are atomic

The synchronisation objects co_chan, co_counting_semaphore, co_latch, co_wait_group and co_barrier all have the
same shape: one `co_mutex`, some `co_condition_variable`s used only with that mutex held, and member functions that
are sequences of critical sections. A critical section starts at a control point `k : K` with the mutex just
acquired (at the beginning of a call, or after `wait` has re-acquired it), reads and writes the protected data
`σ`, calls `notify_one`/`notify_all`, and ends by returning (releasing the mutex), by releasing the mutex and
starting another critical section, or by `wait`ing on a condition variable, after which it continues at another
control point.

This file is the abstract machine, in which a critical section is one step. `Verif.Monitor.Low` is the machine in
which every access to the condition variables is a step of its own, and `Verif.Monitor.Refine` relates them.
-/

namespace Verif.Monitor

/-- `notify_one` / `notify_all` on condition variable `c`. (Concerns co_condition_variable.h:69-88, co_mutex.cpp:18-108.) -/
inductive Sig (C : Type)
  | one (c : C)
  | all (c : C)
  deriving DecidableEq, Repr

/-- The condition variable of a signal (no counterpart in the code). (Concerns co_condition_variable.h:69-88, co_mutex.cpp:18-108.) -/
def Sig.cv {C : Type} : Sig C → C
  | .one c => c
  | .all c => c

/-- How a critical section ends: return `v`; release the mutex and start the section at `k`; wait on `c` and then
continue at `k`. (Concerns co_condition_variable.h:69-88, co_mutex.cpp:18-108.) -/
inductive Fin (C K V : Type)
  | ret (v : V)
  | next (k : K)
  | park (c : C) (k : K)
  deriving DecidableEq, Repr

/-- What a critical section does: new data, observable events, notifications in order, end. (Concerns co_condition_variable.h:69-88, co_mutex.cpp:18-108.) -/
structure Out (σ C K V E : Type) where
  sh : σ
  ev : List E
  sigs : List (Sig C)
  fin : Fin C K V

/-- A monitor object: what the critical section at `k` does when coroutine `t` executes it. (Concerns co_condition_variable.h:69-88, co_mutex.cpp:18-108.) -/
structure Obj (σ C K V E : Type) where
  body : Tid → K → σ → Out σ C K V E

/-- Events: a call begins; an event inside a critical section; a call returns. (Concerns co_condition_variable.h:69-88, co_mutex.cpp:18-108.) -/
inductive Ev (K V E : Type)
  | call (t : Tid) (k : K)
  | lin (e : E)
  | ret (t : Tid) (v : V)
  deriving DecidableEq, Repr

/-- State of a coroutine: outside; wants to execute the section at `k`; waits on `c`; has finished its last
section and is about to return `v`. (Concerns co_condition_variable.h:69-88, co_mutex.cpp:18-108.) -/
inductive Th (C K V : Type)
  | idle
  | ready (k : K)
  | parked (c : C) (k : K)
  | leaving (v : V)
  deriving DecidableEq, Repr

section
variable {σ C K V E : Type} [DecidableEq C]

/-- Write one condition variable's queue. (Concerns co_condition_variable.h:69-88, co_mutex.cpp:18-108.) -/
def setC {α : Type} (f : C → α) (c : C) (v : α) : C → α := fun d => if d = c then v else f d

@[simp, grind =] theorem setC_same {α : Type} (f : C → α) (c : C) (v : α) : setC f c v c = v := by
  simp [setC]

@[simp, grind =] theorem setC_other {α : Type} (f : C → α) {c d : C} (v : α) (h : d ≠ c) :
    setC f c v d = f d := by simp [setC, h]

@[grind =] theorem setC_apply {α : Type} (f : C → α) (c d : C) (v : α) :
    setC f c v d = if d = c then v else f d := rfl

@[simp] theorem setC_setC {α : Type} (f : C → α) (c : C) (v w : α) : setC (setC f c v) c w = setC f c w := by
  funext d; by_cases h : d = c <;> simp [setC, h]

@[simp] theorem setC_self {α : Type} (f : C → α) (c : C) : setC f c (f c) = f := by
  funext d; by_cases h : d = c <;> simp [setC, h]

/-- Effect of a notification on the queues of waiting coroutines. (Concerns co_condition_variable.h:69-88, co_mutex.cpp:18-108.) -/
def notify (wq : C → List Tid) : Sig C → C → List Tid
  | .one c => setC wq c (wq c).tail
  | .all c => setC wq c []

/-- Effect of the end of a critical section of `t` on the queues. (Concerns co_condition_variable.h:69-88, co_mutex.cpp:18-108.) -/
def enqueue (wq : C → List Tid) (t : Tid) : Fin C K V → C → List Tid
  | .park c _ => setC wq c (wq c ++ [t])
  | _ => wq

/-- State of a coroutine that has finished a critical section. (Concerns co_condition_variable.h:69-88, co_mutex.cpp:18-108.) -/
def Fin.th : Fin C K V → Th C K V
  | .ret v => .leaving v
  | .next k => .ready k
  | .park c k => .parked c k

/-- A coroutine that has been taken out of the queue it waits in continues. (Concerns co_condition_variable.h:69-88, co_mutex.cpp:18-108.) -/
def settle (wq : C → List Tid) (t : Tid) : Th C K V → Th C K V
  | .parked c k => if t ∈ wq c then .parked c k else .ready k
  | x => x

/-- State: protected data, queues, coroutines. (Concerns co_condition_variable.h:69-88, co_mutex.cpp:18-108.) -/
structure Abs (σ C K V : Type) where
  sh : σ
  wq : C → List Tid
  th : Tid → Th C K V

/-- Initially nobody is in a call. (Concerns co_condition_variable.h:69-88, co_mutex.cpp:18-108.) -/
def Abs.init (s0 : σ) : Abs σ C K V := ⟨s0, fun _ => [], fun _ => .idle⟩

/-- The choices of the scheduler in the atomic machine (no counterpart in the code). (Concerns co_condition_variable.h:69-88, co_mutex.cpp:18-108.) -/
inductive AAct (K : Type)
  | call (t : Tid) (k : K)
  | run (t : Tid)
  | leave (t : Tid)

/-- The abstract machine. (Concerns co_condition_variable.h:69-88, co_mutex.cpp:18-108.) -/
def Abs.step (o : Obj σ C K V E) (a : Abs σ C K V) : AAct K → Option (Abs σ C K V × List (Ev K V E))
  | .call t k =>
    match a.th t with
    | .idle => some ({ a with th := upd a.th t (.ready k) }, [.call t k])
    | _ => none
  | .run t =>
    match a.th t with
    | .ready k =>
      let r := o.body t k a.sh
      let wq := enqueue (r.sigs.foldl notify a.wq) t r.fin
      some (⟨r.sh, wq, upd (fun u => settle wq u (a.th u)) t r.fin.th⟩, r.ev.map .lin)
    | _ => none
  | .leave t =>
    match a.th t with
    | .leaving v => some ({ a with th := upd a.th t .idle }, [.ret t v])
    | _ => none

/-- Invariant of the abstract machine: the queues hold exactly the waiting coroutines, once each. (Concerns co_condition_variable.h:69-88, co_mutex.cpp:18-108.) -/
structure Abs.Wf (a : Abs σ C K V) : Prop where
  mem : ∀ c t, t ∈ a.wq c ↔ ∃ k, a.th t = .parked c k
  nodup : ∀ c, (a.wq c).Nodup

theorem notify_sublist (wq : C → List Tid) (g : Sig C) (c : C) : ((notify wq g) c).Sublist (wq c) := by
  cases g with
  | one d =>
    simp only [notify, setC]; split
    · next h => subst h; exact List.tail_sublist _
    · exact List.Sublist.refl _
  | all d =>
    simp only [notify, setC]; split
    · exact List.nil_sublist _
    · exact List.Sublist.refl _

theorem foldl_notify_sublist (l : List (Sig C)) (wq : C → List Tid) (c : C) :
    ((l.foldl notify wq) c).Sublist (wq c) := by
  induction l generalizing wq with
  | nil => exact List.Sublist.refl _
  | cons g l ih => exact (ih _).trans (notify_sublist wq g c)

theorem mem_enqueue {wq : C → List Tid} {t u : Tid} {f : Fin C K V} {c : C} :
    u ∈ (enqueue wq t f) c ↔ u ∈ wq c ∨ (u = t ∧ ∃ k, f = .park c k) := by
  cases f with
  | ret v => simp [enqueue]
  | next k => simp [enqueue]
  | park d k =>
    simp only [enqueue, setC]
    split
    · next h => subst h; simp
    · next h => simp; intro _ hd; exact absurd hd.symm h

theorem Abs.wf_init (s0 : σ) : (Abs.init s0 : Abs σ C K V).Wf :=
  ⟨by simp [Abs.init], by simp [Abs.init]⟩

theorem Abs.wf_step {o : Obj σ C K V E} (a : Abs σ C K V) (x : AAct K) (a' : Abs σ C K V)
    (es : List (Ev K V E)) (h : a.Wf) (hs : a.step o x = some (a', es)) : a'.Wf := by
  obtain ⟨hm, hn⟩ := h
  cases x with
  | call t k =>
    simp only [Abs.step] at hs
    split at hs <;> cases hs
    rename_i ht
    refine ⟨fun c u => ?_, hn⟩
    by_cases hu : u = t
    · subst hu; simp [hm, ht]
    · simp [hm, hu]
  | leave t =>
    simp only [Abs.step] at hs
    split at hs <;> cases hs
    rename_i v ht
    refine ⟨fun c u => ?_, hn⟩
    by_cases hu : u = t
    · subst hu; simp [hm, ht]
    · simp [hm, hu]
  | run t =>
    simp only [Abs.step] at hs
    split at hs <;> cases hs
    rename_i k ht
    have hnt : ∀ c, t ∉ a.wq c := fun c h => by simp [hm, ht] at h
    have hsub := fun c => foldl_notify_sublist (o.body t k a.sh).sigs a.wq c
    refine ⟨fun c u => ?_, fun c => ?_⟩
    · by_cases hu : u = t
      · subst hu
        rw [mem_enqueue]
        have := fun h => hnt c ((hsub c).subset h)
        cases hf : (o.body u k a.sh).fin <;> simp_all [Fin.th]
      · simp only [upd_other _ _ hu, mem_enqueue, hu, false_and, or_false]
        cases hth : a.th u with
        | parked d j =>
          simp only [settle, mem_enqueue, hu, false_and, or_false]
          constructor
          · intro hx
            have := (hm c u).1 ((hsub c).subset hx)
            simp only [hth, Th.parked.injEq] at this
            obtain ⟨_, rfl, rfl⟩ := this
            exact ⟨j, by rw [if_pos hx]⟩
          · rintro ⟨j', hj⟩
            split at hj <;> simp at hj
            rename_i hx
            exact hj.1 ▸ hx
        | _ =>
          simp only [settle]
          constructor
          · intro hx
            have := (hm c u).1 ((hsub c).subset hx)
            simp [hth] at this
          · rintro ⟨j, hj⟩; simp at hj
    · have h1 := (hn c).sublist (hsub c)
      cases hf : (o.body t k a.sh).fin with
      | park d j =>
        simp only [enqueue, setC]
        split
        · next h =>
          subst h
          rw [List.nodup_append]
          refine ⟨h1, by simp, ?_⟩
          intro x hx y hy
          simp at hy; subst hy
          rintro rfl
          exact hnt _ ((hsub _).subset hx)
        · exact h1
      | _ => exact h1

end
end Verif.Monitor
