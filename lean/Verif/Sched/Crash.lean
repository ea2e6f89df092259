import Verif.Base.Lts
import Verif.Sched.LockOrder

/-! # Fatal signals (C111)

The manager installs one handler for all signals that would end the process (source/cocpp/core/co_manager.cpp:146-151,
source/cocpp/exception/co_exception.cpp:83-94). It prints a report and calls `exit`, which destroys the manager, as the manager is a static object
(include/cocpp/utils/co_singleton.h:50-55). The first part is about the handler and the threads that run it; the second about the locks the report
and the destruction of the manager need, with the lock operations of the library of `Verif.Sched.LockOrder`.

Not modelled: that the handler calls functions that are not safe in a signal handler (`malloc`, `fprintf`, `std::stringstream`); a stack that
has overflowed, on which the handler cannot run (there is no alternate stack: `sa_flags` is 0, co_exception.cpp:91); the signal
`CO_SWITCH_SIGNAL`, which is not fatal (C57, C58, C76). -/

namespace Verif.Crash
open Verif

/-! ## The handler -/

/-- The sections of the report, in order (co_exception.cpp:69-79): time, registers, memory map, backtrace, coroutines. -/
inductive Sec
  | time | regs | maps | trace | co
deriving DecidableEq, Repr

/-- The `n`-th section of the report (co_exception.cpp:69-79). -/
def sec : Nat → Sec
  | 0 => .time
  | 1 => .regs
  | 2 => .maps
  | 3 => .trace
  | _ => .co

/-- Where an invocation of `handle_exception` is (co_exception.cpp:58-81): before the test of `in_exception` (62); between the test and the assignment
(68); `n` sections printed (69-79); in `exit` (80), that is, in `~co_manager` waiting for the background tasks (co_manager.cpp:407-419). -/
inductive Fr
  | enter
  | mark
  | say (n : Nat)
  | exit
deriving DecidableEq, Repr

/-- How the process ended: by `exit(status)` (80), by `_exit(status)` (66), by the kernel, or undefined behaviour: `exit` called a second time. (Concerns co_exception.cpp:58-137, co_manager.cpp:110-419.) -/
inductive End
  | exit (st : Int)
  | quit (st : Int)
  | killed (sig : Nat)
  | ub
deriving DecidableEq, Repr

/-- `in_exception` (61); the handlers each thread is in, the innermost first, with their signals; has `exit` been called; which background
threads have ended; how the process ended. (co_exception.cpp:58-94.) -/
structure State where
  flag : Bool
  stk : Nat → List (Nat × Fr)
  exiting : Bool
  fin : Nat → Bool
  over : Option End

/-- No signal yet. (Concerns co_exception.cpp:58-137, co_manager.cpp:110-419.) -/
def State.init : State := ⟨false, fun _ => [], false, fun _ => false, none⟩

/-- What is printed, and by which thread: the line with the signal (60), a section, the second line of a nested crash (65). (Concerns co_exception.cpp:58-137, co_manager.cpp:110-419.) -/
inductive Ev
  | signal (t sig : Nat)
  | said (t : Nat) (x : Sec)
  | again (t : Nat)
  | ended (e : End)
deriving DecidableEq, Repr

/-- What may happen: a signal is delivered to a thread; an instruction of a thread raises a signal (a fault); a thread goes on in its innermost handler;
a background task ends because it sees `clean_up__` (co_manager.cpp:197-227, 337-347, 349-385; C85, C93). -/
inductive Act
  | deliver (t sig : Nat)
  | fault (t sig : Nat)
  | run (t : Nat)
  | bgEnd (t : Nat)
deriving DecidableEq, Repr

/-- `SIGPIPE`. (Concerns co_exception.cpp:58-137, co_manager.cpp:110-419.) -/
def SIGPIPE : Nat := 13

/-- The status the handler ends the process with (co_exception.cpp:66, 80). -/
def status (sig : Nat) : Int := 128 - sig

/-- Is the signal blocked in this thread? A handler blocks its own signal and no other: `sa_mask` is empty and `SA_NODEFER` is not
set (co_exception.cpp:87-92). -/
def masked (s : State) (t sig : Nat) : Bool := (s.stk t).any fun f => f.1 == sig

/-- The kernel starts the handler: `SIGPIPE` does nothing (co_exception.cpp:133-137), another signal enters `handle_exception` (138-141, 60). -/
def start (s : State) (t sig : Nat) : State × List Ev :=
  if sig = SIGPIPE then (s, []) else ({ s with stk := upd s.stk t ((sig, .enter) :: s.stk t) }, [.signal t sig])

/-- Replaces the innermost frame of `t`. (Concerns co_exception.cpp:58-137, co_manager.cpp:110-419.) -/
def State.top (s : State) (t : Nat) (f : Nat × Fr) (r : List (Nat × Fr)) : State := { s with stk := upd s.stk t (f :: r) }

/-- The process ends. (Concerns co_exception.cpp:58-137, co_manager.cpp:110-419.) -/
def State.end_ (s : State) (e : End) : State × List Ev := ({ s with over := some e }, [.ended e])

/-- One step. `bg`: the threads of the background tasks (co_manager.cpp:110-121). -/
def step (bg : List Nat) (s : State) : Act → Option (State × List Ev)
  | .deliver t sig => if s.over.isSome || s.fin t || masked s t sig then none else some (start s t sig)
  -- a fault whose signal is blocked kills the process
  | .fault t sig =>
    if s.over.isSome || s.fin t then none
    else if masked s t sig then some (s.end_ (.killed sig)) else some (start s t sig)
  | .run t =>
    if s.over.isSome then none
    else match s.stk t with
    | [] => none
    -- 62-67
    | (sig, .enter) :: r =>
      if s.flag then some (({ s with over := some (.quit (status sig)) }), [.again t, .ended (.quit (status sig))])
      else some (s.top t (sig, .mark) r, [])
    -- 68
    | (sig, .mark) :: r => some ({ s.top t (sig, .say 0) r with flag := true }, [])
    -- 69-80
    | (sig, .say n) :: r =>
      if n < 5 then some (s.top t (sig, .say (n + 1)) r, [.said t (sec n)])
      else if s.exiting then some (s.end_ .ub)
      else some ({ s.top t (sig, .exit) r with exiting := true }, [])
    -- co_manager.cpp:413-419
    | (sig, .exit) :: _ => if bg.all s.fin then some (s.end_ (.exit (status sig))) else none
  | .bgEnd t => if s.over.isSome || !s.exiting || s.fin t || !bg.contains t || !(s.stk t).isEmpty then none
    else some ({ s with fin := upd s.fin t true }, [])

/-- The sections that `t` has printed. (Concerns co_exception.cpp:58-137, co_manager.cpp:110-419.) -/
def said (t : Nat) : List Ev → List Sec
  | [] => []
  | .said u x :: es => if u = t then x :: said t es else said t es
  | _ :: es => said t es

/-- The whole report. (Concerns co_exception.cpp:58-137, co_manager.cpp:110-419.) -/
def report : List Sec := [.time, .regs, .maps, .trace, .co]

theorem said_append (t : Nat) (a b : List Ev) : said t (a ++ b) = said t a ++ said t b := by
  induction a with
  | nil => rfl
  | cons e a ih => cases e <;> simp only [List.cons_append, said, ih] <;> split <;> simp

/-! ## The process ends with a whole report -/

/-- A frame that has not passed the test and the assignment. (Concerns co_exception.cpp:58-137, co_manager.cpp:110-419.) -/
def early : Nat × Fr → Bool
  | (_, .enter) => true
  | (_, .mark) => true
  | _ => false

/-- Proof device: the frames of a thread: above the one that prints only some that have just begun, below it only some that have not
marked the flag; it has printed what its counter says. (Concerns co_exception.cpp:58-137, co_manager.cpp:110-419.) -/
def Ok (flag exiting : Bool) (x : List Sec) (k : List (Nat × Fr)) : Prop :=
  (x = [] ∧ ∀ f ∈ k, early f = true) ∨
  (flag = true ∧ ∃ a f b, k = a ++ f :: b ∧ (∀ g ∈ a, g.2 = .enter) ∧ (∀ g ∈ b, early g = true) ∧
    ((∃ n ≤ 5, f.2 = .say n ∧ x = report.take n) ∨ (f.2 = .exit ∧ exiting = true ∧ x = report)))

/-- Proof device: the invariant. (Concerns co_exception.cpp:58-137, co_manager.cpp:110-419.) -/
structure Inv (bg : List Nat) (s : State) (tr : List Ev) : Prop where
  thr : ∀ t, Ok s.flag s.exiting (said t tr) (s.stk t)
  sig : ∀ t f, f ∈ s.stk t → Ev.signal t f.1 ∈ tr ∧ f.1 ≠ SIGPIPE
  over : ∀ st, s.over = some (.exit st) → ∃ t sig, said t tr = report ∧ Ev.signal t sig ∈ tr ∧ st = status sig ∧ sig ≠ SIGPIPE ∧ t ∉ bg
  fin : ∀ t, s.fin t = true → s.stk t = []
  ends : ∀ st, Ev.ended (.exit st) ∈ tr → s.over = some (.exit st)

theorem ok_push {flag exiting : Bool} {x : List Sec} {k : List (Nat × Fr)} (h : Ok flag exiting x k) (sig : Nat) :
    Ok flag exiting x ((sig, .enter) :: k) := by
  rcases h with ⟨h1, h2⟩ | ⟨h1, a, f, b, rfl, h2, h3, h4⟩
  · exact .inl ⟨h1, fun f hf => by
      rcases List.mem_cons.1 hf with rfl | hf
      · rfl
      · exact h2 f hf⟩
  · exact .inr ⟨h1, (sig, .enter) :: a, f, b, rfl, fun g hg => by
      rcases List.mem_cons.1 hg with rfl | hg
      · rfl
      · exact h2 g hg, h3, h4⟩

theorem ok_mono {flag exiting flag' exiting' : Bool} {x : List Sec} {k : List (Nat × Fr)} (h : Ok flag exiting x k)
    (hf : flag = true → flag' = true) (he : exiting = true → exiting' = true) : Ok flag' exiting' x k := by
  rcases h with h | ⟨h1, a, f, b, rfl, h2, h3, h4⟩
  · exact .inl h
  · refine .inr ⟨hf h1, a, f, b, rfl, h2, h3, ?_⟩
    rcases h4 with h4 | ⟨h4, h5, h6⟩
    · exact .inl h4
    · exact .inr ⟨h4, he h5, h6⟩

/-- The innermost frame is not one that has just begun: it is the one that prints. -/
theorem ok_top {flag exiting : Bool} {x : List Sec} {f : Nat × Fr} {r : List (Nat × Fr)} (h : Ok flag exiting x (f :: r)) (hf : early f = false) :
    flag = true ∧ (∀ g ∈ r, early g = true) ∧ ((∃ n ≤ 5, f.2 = .say n ∧ x = report.take n) ∨ (f.2 = .exit ∧ exiting = true ∧ x = report)) := by
  rcases h with ⟨_, h2⟩ | ⟨h1, a, g, b, h0, h2, h3, h4⟩
  · rw [h2 f (by simp)] at hf; cases hf
  · cases a with
    | nil =>
      simp only [List.nil_append, List.cons.injEq] at h0
      obtain ⟨rfl, rfl⟩ := h0
      exact ⟨h1, h3, h4⟩
    | cons g' a =>
      simp only [List.cons_append, List.cons.injEq] at h0
      obtain ⟨rfl, rfl⟩ := h0
      have := h2 f (by simp)
      obtain ⟨s, q⟩ := f
      subst this
      cases hf

/-- The innermost frame has begun and the flag is not set: all have only begun. -/
theorem ok_begun {exiting : Bool} {x : List Sec} {k : List (Nat × Fr)} (h : Ok false exiting x k) : x = [] ∧ ∀ f ∈ k, early f = true := by
  rcases h with h | ⟨h, _⟩
  · exact h
  · cases h

theorem inv_init (bg : List Nat) : Inv bg State.init [] :=
  ⟨fun _ => .inl ⟨rfl, by simp [State.init]⟩, by simp [State.init], by simp [State.init], by simp [State.init], by simp⟩

theorem inv_start {bg : List Nat} {s : State} {tr : List Ev} {t sig : Nat} (hI : Inv bg s tr) (ho : s.over = none) (hf : s.fin t = false) :
    Inv bg (start s t sig).1 (tr ++ (start s t sig).2) := by
  unfold start
  split
  · simpa using hI
  · rename_i hp
    refine ⟨fun u => ?_, fun u f hf => ?_, fun st h => ?_, fun u hu => ?_, fun st h => ?_⟩
    · simp only [said_append, said, List.append_nil, upd_apply]
      split
      · rename_i h; subst h; exact ok_push (hI.thr u) sig
      · exact hI.thr u
    · simp only [upd_apply] at hf
      simp only [List.mem_append, List.mem_singleton, Ev.signal.injEq]
      split at hf
      · rename_i h; subst h
        rcases List.mem_cons.1 hf with rfl | hf
        · exact ⟨.inr ⟨rfl, rfl⟩, hp⟩
        · exact ⟨.inl (hI.sig u f hf).1, (hI.sig u f hf).2⟩
      · exact ⟨.inl (hI.sig u f hf).1, (hI.sig u f hf).2⟩
    · rw [ho] at h; cases h
    · simp only [upd_apply]
      split
      · rename_i h; subst h; rw [hf] at hu; cases hu
      · exact hI.fin u hu
    · simp only [List.mem_append, List.mem_singleton, reduceCtorEq, or_false] at h
      have := hI.ends st h
      rw [ho] at this; cases this

/-- Ending in another way than by `exit`. -/
theorem inv_end {bg : List Nat} {s : State} {tr es : List Ev} {e : End} (hI : Inv bg s tr) (ho : s.over = none) (he : ∀ st, e ≠ .exit st)
    (hs : ∀ t, said t es = []) (hes : ∀ st, Ev.ended (.exit st) ∉ es) : Inv bg { s with over := some e } (tr ++ es) := by
  refine ⟨fun t => ?_, fun t f hf => ⟨List.mem_append_left _ (hI.sig t f hf).1, (hI.sig t f hf).2⟩, fun st h => ?_, hI.fin, fun st h => ?_⟩
  · rw [said_append, hs, List.append_nil]; exact hI.thr t
  · exact absurd (by simpa using h) (he st)
  · rcases List.mem_append.1 h with h | h
    · have := hI.ends st h; rw [ho] at this; cases this
    · exact absurd h (hes st)

/-- The innermost frame of a thread goes on. -/
theorem inv_top {bg : List Nat} {s : State} {tr es : List Ev} {t sig : Nat} {p q : Fr} {r : List (Nat × Fr)} {flag exiting : Bool} (hI : Inv bg s tr)
    (ho : s.over = none) (hk : s.stk t = (sig, p) :: r) (hf : s.flag = true → flag = true) (he : s.exiting = true → exiting = true)
    (hs : ∀ u, u ≠ t → said u es = []) (hes : ∀ e, Ev.ended e ∉ es) (hok : Ok flag exiting (said t tr ++ said t es) ((sig, q) :: r)) :
    Inv bg ⟨flag, upd s.stk t ((sig, q) :: r), exiting, s.fin, s.over⟩ (tr ++ es) := by
  refine ⟨fun u => ?_, fun u f hf => ?_, fun st h => ?_, fun u hu => ?_, fun st h => ?_⟩
  · simp only [said_append, upd_apply]
    split
    · rename_i h; subst h; exact hok
    · rename_i h; rw [hs u h, List.append_nil]; exact ok_mono (hI.thr u) hf he
  · simp only [upd_apply] at hf
    split at hf
    · rename_i h; subst h
      rcases List.mem_cons.1 hf with rfl | hf
      · have := hI.sig u (sig, p) (by rw [hk]; simp)
        exact ⟨List.mem_append_left _ this.1, this.2⟩
      · have := hI.sig u f (by rw [hk]; simp [hf])
        exact ⟨List.mem_append_left _ this.1, this.2⟩
    · exact ⟨List.mem_append_left _ (hI.sig u f hf).1, (hI.sig u f hf).2⟩
  · rw [ho] at h; cases h
  · simp only [upd_apply]
    split
    · rename_i h; subst h; have := hI.fin u hu; rw [hk] at this; cases this
    · exact hI.fin u hu
  · rcases List.mem_append.1 h with h | h
    · exact hI.ends st h
    · exact absurd h (hes _)

theorem inv_step {bg : List Nat} {s s' : State} {tr es : List Ev} {a : Act} (hI : Inv bg s tr) (hs : step bg s a = some (s', es)) :
    Inv bg s' (tr ++ es) := by
  cases a with
  | deliver t sig =>
    simp only [step] at hs
    split at hs
    · cases hs
    · rename_i hc
      simp only [Bool.or_eq_true, not_or, Bool.not_eq_true, Option.isSome_eq_false_iff, Option.isNone_iff_eq_none] at hc
      have := inv_start (sig := sig) hI hc.1.1 hc.1.2
      simp only [Option.some.injEq] at hs
      rw [hs] at this
      exact this
  | fault t sig =>
    simp only [step] at hs
    split at hs
    · cases hs
    · rename_i hc
      simp only [Bool.or_eq_true, not_or, Bool.not_eq_true, Option.isSome_eq_false_iff, Option.isNone_iff_eq_none] at hc
      split at hs
      · simp only [State.end_, Option.some.injEq, Prod.mk.injEq] at hs
        obtain ⟨rfl, rfl⟩ := hs
        exact inv_end hI hc.1 (by simp) (by simp [said]) (by simp)
      · have := inv_start (sig := sig) hI hc.1 hc.2
        simp only [Option.some.injEq] at hs
        rw [hs] at this
        exact this
  | run t =>
    simp only [step] at hs
    split at hs
    · cases hs
    · rename_i ho
      simp only [Bool.not_eq_true, Option.isSome_eq_false_iff, Option.isNone_iff_eq_none] at ho
      split at hs
      · cases hs
      · rename_i sig r hk
        split at hs
        · simp only [Option.some.injEq, Prod.mk.injEq] at hs
          obtain ⟨rfl, rfl⟩ := hs
          exact inv_end hI ho (by simp) (by simp [said]) (by simp)
        · rename_i hfl
          simp only [Option.some.injEq, Prod.mk.injEq] at hs
          obtain ⟨rfl, rfl⟩ := hs
          have := hI.thr t
          simp only [Bool.not_eq_true] at hfl
          rw [hfl, hk] at this
          obtain ⟨h1, h2⟩ := ok_begun this
          refine inv_top (q := .mark) hI ho hk id id (by simp [said]) (by simp) (.inl ⟨by simp [said, h1], fun f hf => ?_⟩)
          rcases List.mem_cons.1 hf with rfl | hf
          · rfl
          · exact h2 f (by simp [hf])
      · rename_i sig r hk
        simp only [Option.some.injEq, Prod.mk.injEq] at hs
        obtain ⟨rfl, rfl⟩ := hs
        have h := hI.thr t
        rw [hk] at h
        refine inv_top (q := .say 0) hI ho hk (fun _ => rfl) id (by simp [said]) (by simp) ?_
        rcases h with ⟨h1, h2⟩ | ⟨h1, a, g, b, h0, h2, h3, h4⟩
        · exact .inr ⟨rfl, [], (sig, .say 0), r, rfl, by simp, fun g hg => h2 g (by simp [hg]), .inl ⟨0, by omega, rfl, by simp [said, h1]⟩⟩
        · cases a with
          | nil =>
            simp only [List.nil_append, List.cons.injEq] at h0
            obtain ⟨rfl, rfl⟩ := h0
            rcases h4 with ⟨_, _, h4, _⟩ | ⟨h4, _⟩ <;> cases h4
          | cons g' a =>
            simp only [List.cons_append, List.cons.injEq] at h0
            obtain ⟨rfl, rfl⟩ := h0
            have := h2 _ List.mem_cons_self
            cases this
      · rename_i sig n r hk
        have h := hI.thr t
        rw [hk] at h
        obtain ⟨h1, h2, h3⟩ := ok_top h rfl
        rcases h3 with ⟨m, hm, h3, h4⟩ | ⟨h3, _⟩
        · simp only [Fr.say.injEq] at h3
          subst h3
          split at hs
          · rename_i hn
            simp only [Option.some.injEq, Prod.mk.injEq] at hs
            obtain ⟨rfl, rfl⟩ := hs
            refine inv_top (q := .say (n + 1)) hI ho hk id id (fun u hu => by simp [said, Ne.symm hu]) (by simp)
              (.inr ⟨h1, [], _, r, rfl, by simp, h2, .inl ⟨n + 1, by omega, rfl, ?_⟩⟩)
            rw [h4]
            simp only [said, if_true]
            have : n = 0 ∨ n = 1 ∨ n = 2 ∨ n = 3 ∨ n = 4 := by omega
            rcases this with rfl | rfl | rfl | rfl | rfl <;> rfl
          · rename_i hn
            split at hs
            · simp only [State.end_, Option.some.injEq, Prod.mk.injEq] at hs
              obtain ⟨rfl, rfl⟩ := hs
              exact inv_end hI ho (by simp) (by simp [said]) (by simp)
            · simp only [Option.some.injEq, Prod.mk.injEq] at hs
              obtain ⟨rfl, rfl⟩ := hs
              have : n = 5 := by omega
              subst this
              refine inv_top (q := .exit) hI ho hk id (fun _ => rfl) (by simp [said]) (by simp)
                (.inr ⟨h1, [], _, r, rfl, by simp, h2, .inr ⟨rfl, rfl, ?_⟩⟩)
              rw [h4]; rfl
        · cases h3
      · rename_i sig r hk
        split at hs
        · rename_i hb
          simp only [State.end_, Option.some.injEq, Prod.mk.injEq] at hs
          obtain ⟨rfl, rfl⟩ := hs
          have h := hI.thr t
          rw [hk] at h
          obtain ⟨h1, h2, h3⟩ := ok_top h rfl
          have h4 : said t tr = report := by
            rcases h3 with ⟨m, hm, h3, h4⟩ | ⟨_, _, h3⟩
            · cases h3
            · exact h3
          have h5 := hI.sig t _ (by rw [hk]; exact List.mem_cons_self)
          refine ⟨fun u => ?_, fun u f hf => ⟨List.mem_append_left _ (hI.sig u f hf).1, (hI.sig u f hf).2⟩, fun st hst => ?_, hI.fin, fun st hst => ?_⟩
          · rw [said_append]; simpa [said] using hI.thr u
          · simp only [Option.some.injEq, End.exit.injEq] at hst
            refine ⟨t, sig, by rw [said_append, h4]; rfl, List.mem_append_left _ h5.1, hst.symm, h5.2, fun hm => ?_⟩
            have := hI.fin t (List.all_eq_true.1 hb t hm)
            rw [hk] at this; cases this
          · rcases List.mem_append.1 hst with hst | hst
            · have := hI.ends st hst; rw [ho] at this; cases this
            · simpa [eq_comm] using hst
        · cases hs
  | bgEnd t =>
    simp only [step] at hs
    split at hs
    · cases hs
    · rename_i hc
      simp only [Bool.or_eq_true, not_or, Bool.not_eq_true, Bool.not_eq_true', Bool.not_eq_false, Option.isSome_eq_false_iff, Option.isNone_iff_eq_none, List.isEmpty_iff] at hc
      simp only [Option.some.injEq, Prod.mk.injEq] at hs
      obtain ⟨rfl, rfl⟩ := hs
      refine ⟨fun u => ?_, fun u f hf => ?_, fun st h => ?_, fun u hu => ?_, fun st h => ?_⟩
      · simpa using hI.thr u
      · simpa using hI.sig u f hf
      · simpa using hI.over st h
      · simp only [upd_apply] at hu
        split at hu
        · rename_i h; subst h; exact hc.2
        · exact hI.fin u hu
      · exact hI.ends st (by simpa using h)

theorem inv_runs {bg : List Nat} {as : List Act} {s : State} {tr : List Ev} (h : runs (step bg) State.init as = some (s, tr)) : Inv bg s tr := by
  have := runs_hist (step := step bg) (Inv bg) (fun _ _ _ _ _ hI hs => inv_step hI hs) as _ s tr [] (inv_init bg) h
  simpa using this

/-- **C111 (partial).** If the process ends by `exit`, some thread that got a fatal signal and is not one of the background threads has printed the
whole report, in order, and the status tells the signal. What is missing: `C111_second_ends`, `C111_cut_short`, `C111_twice`,
`C111_background_waits_for_itself`, `C111_deadlocks`. -/
theorem C111_report_partial {bg : List Nat} {as : List Act} {s : State} {tr : List Ev} (h : runs (step bg) State.init as = some (s, tr)) {st : Int}
    (hst : Ev.ended (.exit st) ∈ tr) :
    ∃ t sig, Ev.signal t sig ∈ tr ∧ sig ≠ 13 ∧ t ∉ bg ∧ said t tr = [.time, .regs, .maps, .trace, .co] ∧ st = 128 - (sig : Int) := by
  obtain ⟨t, sig, h1, h2, h3, h4, h5⟩ := (inv_runs h).over st ((inv_runs h).ends st hst)
  exact ⟨t, sig, h2, h4, h5, h1, h3⟩

/-- Once the handler of one thread has set the flag, another fatal signal ends the process in two steps of whoever gets it, and nothing can
hinder them: no lock is needed. -/
theorem C111_second_ends {bg : List Nat} {s : State} {t sig : Nat} (hf : s.flag = true) (ho : s.over = none) (ht : s.fin t = false)
    (hm : ∀ f ∈ s.stk t, f.1 ≠ sig) (hp : sig ≠ 13) :
    ∃ s', runs (step bg) s [.deliver t sig, .run t] = some (s', [.signal t sig, .again t, .ended (.quit (128 - sig))]) ∧
      s'.over = some (.quit (128 - sig)) := by
  have h1 : masked s t sig = false := by
    simp only [masked, List.any_eq_false]
    intro f hf; simpa using hm f hf
  refine ⟨{ s with stk := upd s.stk t ((sig, .enter) :: s.stk t), over := some (.quit (128 - sig)) }, ?_, rfl⟩
  simp [runs, step, ho, ht, h1, start, hp, SIGPIPE, hf, status]

/-- A fault in the handler ends the process: by the kernel if it is the signal that is handled. -/
theorem fault_ends {bg : List Nat} {s : State} {t sig : Nat} (ho : s.over = none) (ht : s.fin t = false) (hm : masked s t sig = true) :
    step bg s (.fault t sig) = some ({ s with over := some (.killed sig) }, [.ended (.killed sig)]) := by
  simp [step, ho, ht, hm, State.end_]

/-! ## One signal -/

/-- Is a signal sent or raised? (Concerns co_exception.cpp:58-137, co_manager.cpp:110-419.) -/
def Act.isSignal : Act → Bool
  | .deliver _ _ => true
  | .fault _ _ => true
  | _ => false

/-- Proof device: the only signal was `sig`, for `t`. `n`: how many steps are left to the handler. (Concerns co_exception.cpp:58-137, co_manager.cpp:110-419.) -/
structure One (bg : List Nat) (t sig : Nat) (s : State) (n : Nat) : Prop where
  others : ∀ u, u ≠ t → s.stk u = []
  stk : ∃ p, s.stk t = [(sig, p)] ∧ (early (sig, p) = true → s.flag = false) ∧ (p ≠ .exit → s.exiting = false) ∧
    n = (match p with | .enter => 8 | .mark => 7 | .say k => 6 - k | .exit => 0) ∧ (∀ k, p = .say k → k ≤ 5) ∧ (p = .exit → s.exiting = true)
  fin : s.fin t = false
  over : s.over = none ∨ (s.over = some (.exit (status sig)) ∧ t ∉ bg)

/-- Proof device: how many background tasks have not ended. (Concerns co_exception.cpp:58-137, co_manager.cpp:110-419.) -/
def tasks (bg : List Nat) (f : Nat → Bool) : Nat := (bg.filter fun t => !f t).length

/-- Proof device: has the process to end yet? (Concerns co_exception.cpp:58-137, co_manager.cpp:110-419.) -/
def alive : Option End → Nat
  | none => 1
  | some _ => 0

/-- Proof device: what is left to do: the steps of the handler, the background tasks, the end. (Concerns co_exception.cpp:58-137, co_manager.cpp:110-419.) -/
def left (bg : List Nat) (s : State) (n : Nat) : Nat := n + tasks bg s.fin + alive s.over

theorem filter_lt {bg : List Nat} {f : Nat → Bool} {t : Nat} (ht : t ∈ bg) (hf : f t = false) :
    tasks bg (upd f t true) + 1 ≤ tasks bg f := by
  unfold tasks
  have hle : ∀ l : List Nat, (l.filter fun u => !(upd f t true) u).length ≤ (l.filter fun u => !f u).length := by
    intro l
    induction l with
    | nil => simp
    | cons x l ih =>
      simp only [List.filter_cons, upd_apply]
      by_cases hx : x = t
      · subst hx
        simp only [if_true, hf, Bool.not_true, Bool.false_eq_true, if_false, Bool.not_false, List.length_cons]
        exact Nat.le_succ_of_le ih
      · simp only [hx, if_false]
        split
        · simp only [List.length_cons]; exact Nat.succ_le_succ ih
        · exact ih
  induction bg with
  | nil => cases ht
  | cons x l ih =>
    by_cases hx : x = t
    · subst hx
      have := hle l
      simp only [List.filter_cons, upd_same, hf]
      simpa using this
    · have := ih ((List.mem_cons.1 ht).resolve_left (Ne.symm hx))
      simp only [List.filter_cons, upd_other _ _ hx]
      cases hb : f x <;> simp <;> omega

theorem one_step {bg : List Nat} {t sig n : Nat} {s s' : State} {a : Act} {es : List Ev} (hO : One bg t sig s n) (ha : a.isSignal = false)
    (hs : step bg s a = some (s', es)) : ∃ m, One bg t sig s' m ∧ left bg s' m + 1 ≤ left bg s n := by
  obtain ⟨h1, ⟨p, h2, h3, h4, h5, h6, h7⟩, h8, h9⟩ := hO
  cases a with
  | deliver => cases ha
  | fault => cases ha
  | run u =>
    simp only [step] at hs
    split at hs
    · cases hs
    · rename_i ho
      simp only [Bool.not_eq_true, Option.isSome_eq_false_iff, Option.isNone_iff_eq_none] at ho
      by_cases hu : u = t
      · subst hu
        rw [h2] at hs
        cases p with
        | enter =>
          simp only [h3 rfl, Bool.false_eq_true, if_false, Option.some.injEq, Prod.mk.injEq] at hs
          obtain ⟨rfl, rfl⟩ := hs
          refine ⟨7, ⟨fun v hv => by simp [State.top, upd_other _ _ hv, h1 v hv], ⟨.mark, by simp [State.top], fun _ => h3 rfl, fun _ => h4 (by simp), rfl, by simp, by simp⟩,
            h8, h9⟩, ?_⟩
          simp only at h5; subst h5; simp only [left, State.top]; omega
        | mark =>
          simp only [Option.some.injEq, Prod.mk.injEq] at hs
          obtain ⟨rfl, rfl⟩ := hs
          refine ⟨6, ⟨fun v hv => by simp [State.top, upd_other _ _ hv, h1 v hv], ⟨.say 0, by simp [State.top], by simp [early], fun _ => h4 (by simp), rfl,
            by simp, by simp⟩, h8, h9⟩, ?_⟩
          simp only at h5; subst h5; simp only [left, State.top]; omega
        | say k =>
          simp only at h5 hs
          have h6 := h6 k rfl
          split at hs
          · simp only [Option.some.injEq, Prod.mk.injEq] at hs
            obtain ⟨rfl, rfl⟩ := hs
            refine ⟨6 - (k + 1), ⟨fun v hv => by simp [State.top, upd_other _ _ hv, h1 v hv], ⟨.say (k + 1), by simp [State.top], by simp [early],
              fun _ => h4 (by simp), rfl, by simp; omega, by simp⟩, h8, h9⟩, ?_⟩
            subst h5; simp only [left, State.top]; omega
          · simp only [h4 (by simp), Bool.false_eq_true, if_false, Option.some.injEq, Prod.mk.injEq] at hs
            obtain ⟨rfl, rfl⟩ := hs
            refine ⟨0, ⟨fun v hv => by simp [State.top, upd_other _ _ hv, h1 v hv], ⟨.exit, by simp [State.top], by simp [early], by simp, rfl, by simp, by simp⟩, h8, h9⟩, ?_⟩
            subst h5; simp only [left, State.top]; omega
        | exit =>
          simp only at hs
          split at hs
          · rename_i hb
            simp only [State.end_, Option.some.injEq, Prod.mk.injEq] at hs
            obtain ⟨rfl, rfl⟩ := hs
            refine ⟨n, ⟨h1, ⟨.exit, h2, h3, h4, h5, h6, h7⟩, h8, .inr ⟨rfl, fun hm => ?_⟩⟩, ?_⟩
            · have := List.all_eq_true.1 hb u hm
              rw [h8] at this; cases this
            · simp [left, ho, alive]
          · cases hs
      · rw [h1 u hu] at hs; cases hs
  | bgEnd u =>
    simp only [step] at hs
    split at hs
    · cases hs
    · rename_i hc
      simp only [Bool.or_eq_true, not_or, Bool.not_eq_true, Bool.not_eq_true', Bool.not_eq_false, Option.isSome_eq_false_iff, Option.isNone_iff_eq_none,
        List.isEmpty_iff, List.contains_iff_mem] at hc
      simp only [Option.some.injEq, Prod.mk.injEq] at hs
      obtain ⟨rfl, rfl⟩ := hs
      have hu : u ≠ t := fun h => by subst h; rw [h2] at hc; simp at hc
      refine ⟨n, ⟨h1, ⟨p, h2, h3, h4, h5, h6, h7⟩, by simp [upd_other _ _ (Ne.symm hu), h8], h9⟩, ?_⟩
      have := filter_lt hc.1.2 hc.1.1.2
      simp only [left] at this ⊢
      omega

theorem one_start {bg : List Nat} {t sig : Nat} (hp : sig ≠ 13) {a : Act} (ha : a = .deliver t sig ∨ a = .fault t sig) {s : State} {es : List Ev}
    (hs : step bg State.init a = some (s, es)) : One bg t sig s 8 ∧ left bg s 8 = 9 + bg.length := by
  have hm : masked State.init t sig = false := rfl
  have : s = { State.init with stk := upd (fun _ => []) t [(sig, .enter)] } := by
    rcases ha with rfl | rfl <;> simp only [step, hm] at hs <;>
      simp only [State.init, Option.isSome_none, Bool.or_self, Bool.false_eq_true, if_false, start, SIGPIPE, hp, Option.some.injEq, Prod.mk.injEq] at hs <;>
      exact hs.1.symm
  subst this
  refine ⟨⟨fun u hu => by simp [upd_other _ _ hu], ⟨.enter, by simp, fun _ => rfl, fun _ => rfl, rfl, by simp, by simp⟩, rfl, .inl rfl⟩, ?_⟩
  have : tasks bg (fun _ => false) = bg.length := by simp [tasks]
  simp only [left, State.init, this, alive]
  omega

theorem one_runs {bg : List Nat} {t sig n : Nat} {as : List Act} {s s' : State} {es : List Ev} (hO : One bg t sig s n)
    (ha : ∀ a ∈ as, a.isSignal = false) (h : runs (step bg) s as = some (s', es)) :
    ∃ m, One bg t sig s' m ∧ left bg s' m + as.length ≤ left bg s n := by
  induction as generalizing s n es with
  | nil => cases h; exact ⟨n, hO, by simp⟩
  | cons a as ih =>
    obtain ⟨s1, e1, e2, h1, h2, rfl⟩ := runs_cons h
    obtain ⟨m, hm, hl⟩ := one_step hO (ha a (by simp)) h1
    obtain ⟨k, hk, hl'⟩ := ih hm (fun b hb => ha b (by simp [hb])) h2
    exact ⟨k, hk, by simp only [List.length_cons]; omega⟩

/-- One fatal signal and no other, not for a background thread: the process takes a bounded number of steps, and when no more is possible, it has
ended by `exit`. -/
theorem C111_one_signal_ends {bg : List Nat} {t sig : Nat} (hp : sig ≠ 13) (ht : t ∉ bg) {a : Act} (ha : a = .deliver t sig ∨ a = .fault t sig)
    {as : List Act} (has : ∀ a ∈ as, a.isSignal = false) {s : State} {tr : List Ev} (h : runs (step bg) State.init (a :: as) = some (s, tr)) :
    as.length ≤ 9 + bg.length ∧
    ((∀ b, b.isSignal = false → step bg s b = none) → s.over = some (.exit (128 - sig))) := by
  obtain ⟨s1, e1, e2, h1, h2, rfl⟩ := runs_cons h
  obtain ⟨hO, hl⟩ := one_start hp ha h1
  obtain ⟨m, hm, hl'⟩ := one_runs hO has h2
  refine ⟨by omega, fun hst => ?_⟩
  obtain ⟨g1, ⟨p, g2, g3, g4, g5, g6, g7⟩, g8, g9⟩ := hm
  rcases g9 with g9 | g9
  · exfalso
    have hr := hst (.run t) rfl
    simp only [step, g9, Option.isSome_none, Bool.false_eq_true, if_false, g2] at hr
    cases p with
    | enter => simp [g3 rfl] at hr
    | mark => simp at hr
    | say k =>
      simp only [g4 (by simp)] at hr
      split at hr <;> simp at hr
    | exit =>
      simp only [ite_eq_right_iff, reduceCtorEq, imp_false] at hr
      apply hr
      rw [List.all_eq_true]
      intro u hu
      have hb := hst (.bgEnd u) rfl
      have hut : u ≠ t := fun h => ht (h ▸ hu)
      simp only [step, g9, g7 rfl, g1 u hut, List.contains_iff_mem.2 hu] at hb
      simpa using hb
  · exact g9.1

/-- **Negation.** The signal is for a background thread: the process never ends unless another signal comes; the thread waits for itself. -/
theorem C111_background_waits_for_itself {bg : List Nat} {t sig : Nat} (hp : sig ≠ 13) (ht : t ∈ bg) {a : Act}
    (ha : a = .deliver t sig ∨ a = .fault t sig) {as : List Act} (has : ∀ a ∈ as, a.isSignal = false) {s : State} {tr : List Ev}
    (h : runs (step bg) State.init (a :: as) = some (s, tr)) : s.over = none ∧ as.length ≤ 9 + bg.length := by
  obtain ⟨s1, e1, e2, h1, h2, rfl⟩ := runs_cons h
  obtain ⟨hO, hl⟩ := one_start hp ha h1
  obtain ⟨m, hm, hl'⟩ := one_runs hO has h2
  refine ⟨?_, by omega⟩
  rcases hm.over with g | g
  · exact g
  · exact absurd ht g.2

/-- The status tells the signal, but it is not the one that shells use for the signal, and programs that end normally use the same. -/
theorem C111_status (sig : Nat) (h : 1 ≤ sig) (h' : sig ≤ 64) :
    64 ≤ status sig ∧ status sig ≤ 127 ∧ 128 - status sig = sig ∧ status sig ≠ 128 + sig := by
  simp only [status]; omega

/-! ## Cases -/

/-- What happens, from the start; background threads 7, 8, 9. (Concerns co_exception.cpp:58-137, co_manager.cpp:110-419.) -/
def events (as : List Act) : Option (List Ev) := (runs (step [7, 8, 9]) State.init as).map (·.2)

/-- A crash in thread 1: the report, the end of the background tasks, the end of the process. -/
example : events ([.fault 1 11] ++ List.replicate 8 (.run 1) ++ [.bgEnd 8, .bgEnd 7, .bgEnd 9, .run 1]) =
    some [.signal 1 11, .said 1 .time, .said 1 .regs, .said 1 .maps, .said 1 .trace, .said 1 .co, .ended (.exit 117)] := by decide

/-- `SIGPIPE` does nothing. -/
example : events [.deliver 1 13] = some [] ∧ events [.deliver 1 13, .run 1] = none := by decide

/-- A fault while the registers are printed. -/
example : events [.fault 1 11, .run 1, .run 1, .run 1, .fault 1 11] = some [.signal 1 11, .said 1 .time, .ended (.killed 11)] ∧
    events [.fault 1 11, .run 1, .run 1, .run 1, .fault 1 7, .run 1] =
      some [.signal 1 11, .said 1 .time, .signal 1 7, .again 1, .ended (.quit 121)] := by decide

/-- The timer thread gets `SIGTERM`: it waits for its own end. -/
example : events ([.deliver 9 15] ++ List.replicate 8 (.run 9) ++ [.bgEnd 8, .bgEnd 7]) =
      some [.signal 9 15, .said 9 .time, .said 9 .regs, .said 9 .maps, .said 9 .trace, .said 9 .co] ∧
    events ([.deliver 9 15] ++ List.replicate 8 (.run 9) ++ [.bgEnd 8, .bgEnd 7, .run 9]) = none ∧
    events ([.deliver 9 15] ++ List.replicate 8 (.run 9) ++ [.bgEnd 8, .bgEnd 7, .bgEnd 9]) = none := by decide

/-- **Negation.** Two threads crash: the second cuts the report of the first short. -/
theorem C111_cut_short : events [.fault 1 11, .run 1, .run 1, .run 1, .fault 2 11, .run 2] =
    some [.signal 1 11, .said 1 .time, .signal 2 11, .again 2, .ended (.quit 117)] := by decide

/-- **Negation.** Two threads crash at the same time: both see that the flag is not set, and both call `exit`, which is undefined. -/
theorem C111_twice : events ([.fault 1 11, .fault 2 11, .run 1, .run 2] ++ List.replicate 7 (.run 1) ++ List.replicate 7 (.run 2)) =
    some [.signal 1 11, .signal 2 11, .said 1 .time, .said 1 .regs, .said 1 .maps, .said 1 .trace, .said 1 .co,
      .said 2 .time, .said 2 .regs, .said 2 .maps, .said 2 .trace, .said 2 .co, .ended .ub] := by decide

/-! ## The locks -/

open LockOrder LibLocks

/-- The lock operations of the handler: the section on coroutines (co_exception.cpp:77-79) and the destructor of the manager in `exit`
(80, co_manager.cpp:407-411). -/
def handler (es cs ts : List Nat) (i : Nat) : Code := managerInfo es cs ts i ++ setCleanUp es

/-- What coroutines and threads run when fatal signals may come: code of the library, or the first part `a` of it and then the handler, which
does not return. `ok`: where signals come. (Concerns co_exception.cpp:58-137, co_manager.cpp:110-419.) -/
inductive Hit (ok : Code → Prop) : Code → Prop
  | lib (b) : Lib false false b → Hit ok b
  | hit (a r es cs ts i) : Lib false false (a ++ r) → ok a → Hit ok (a ++ handler es cs ts i)

/-- **C111 (partial), the locks.** If the signals come only where the thread has none of the library's locks, the report and the destructor do not deadlock
with what the other threads do (in programs without timers and timed waits, in which coroutines change only their own priorities, as C108). -/
theorem C111_no_deadlock_partial (thr : Nat → Nat) (s : LockOrder.State Lk)
    (h : LockOrder.Reach thr native (Hit fun a => ∀ l, after (fun _ => 0) a l = 0) s) (D : List Nat) : ¬ Deadlock thr native s D := by
  refine no_deadlock (rank := rank) (gate := gate) 20 rank_le (fun b hb => ?_) ?_ ?_ h D
  · cases hb with
    | lib _ hb => exact ord_of_chk _ _ _ _ _ (lib_ord hb) (fun l => congrFun (lib_bal hb _) l)
    | hit a r es cs ts i hb ha =>
      have hz : after (fun _ => 0) a = fun _ => 0 := funext ha
      have hh : Lib false false (handler es cs ts i) := .app _ _ (.managerInfo _ _ _ _) (.setCleanUp _)
      refine ord_of_chk _ _ _ _ _ ?_ (fun l => ?_)
      · rw [chk_app, hz]
        exact ⟨((chk_app _ _ _ _ _ _).1 (lib_ord hb)).1, lib_ord hh⟩
      · rw [after_app, hz]
        exact congrFun (lib_bal hh _) l
  · intro k l hk hl; cases k <;> cases l <;> simp_all [native, rank]
  · intro l g hl; cases l <;> simp_all [gate, native]

/-- **Negation.** A thread that schedules gets a fatal signal while it has the schedule lock of its env 9, and the main thread, which ends, or the monitor
thread waits for that lock with the lock of the list of envs: a deadlock. By `deadlock_step` it lasts. -/
theorem C111_deadlocks :
    (∃ s, LockOrder.Reach id native (Hit fun _ => True) s ∧ Deadlock id native s [0, 1] ∧
      (∃ r, s.rest 0 = .lock .envs :: r) ∧ ∃ r, s.rest 1 = .lock (.sched 9) :: r ∧ Lib false false ((setCleanUp [9]).take 7 ++ .lock (.sched 9) :: r)) ∧
    ∃ s, LockOrder.Reach id native (Hit fun _ => True) s ∧ Deadlock id native s [0, 1] ∧
      (∃ r, s.rest 0 = .lock .envs :: r) ∧ ∃ r, s.rest 1 = .lock (.sched 9) :: r ∧
        Lib false false ((destroyRedundant [9]).take 17 ++ .lock (.sched 9) :: r) := by
  have h0 : Hit (fun _ => True) ([.lock (.sched 9)] ++ handler [9] [] [] 4) :=
    .hit [.lock (.sched 9)] ((scheduleSwitch 9 4 5 [4, 5] []).drop 1) _ _ _ _ (.scheduleSwitch 9 4 5 [4, 5] []) trivial
  refine ⟨?_, ?_⟩
  · obtain ⟨s, h1, h2, h3, h4⟩ := dead_two native (Hit fun _ => True) [.lock (.sched 9), .lock .queue, .lock .dur, .lock .queue] ((setCleanUp [9]).take 7)
      ((handler [9] [] [] 4).drop 4) ((setCleanUp [9]).drop 8) .envs (.sched 9) h0 (.lib _ (.setCleanUp [9])) (by decide) (by decide) (by decide)
      (by decide) (by decide)
    exact ⟨s, h1, h2, ⟨_, h3⟩, _, h4, .setCleanUp [9]⟩
  · obtain ⟨s, h1, h2, h3, h4⟩ := dead_two native (Hit fun _ => True) [.lock (.sched 9), .lock .queue, .lock .dur, .lock .queue]
      ((destroyRedundant [9]).take 17) ((handler [9] [] [] 4).drop 4) ((destroyRedundant [9]).drop 18) .envs (.sched 9) h0
      (.lib _ (.destroyRedundant [9])) (by decide) (by decide) (by decide) (by decide) (by decide)
    exact ⟨s, h1, h2, ⟨_, h3⟩, _, h4, .destroyRedundant [9]⟩

/-- A signal between two calls of the library is one where no lock is held: the hypothesis of `C111_no_deadlock_partial` can be met. -/
example : Hit (fun a => ∀ l, after (fun _ => 0) a l = 0) (mUnlock 3 [] ++ handler [9] [5] [] 4) :=
  .hit (mUnlock 3 []) (mTry 3) _ _ _ _ (.app _ _ (.mUnlock _ _) (.mTry _)) fun l => congrFun (lib_bal (tmr := false) (out := false) (.mUnlock 3 []) _) l

end Verif.Crash
