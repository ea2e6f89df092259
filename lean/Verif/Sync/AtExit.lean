import Verif.Base.Lts

/-! # C120: `notify_all_at_co_exit`

`notify_all_at_co_exit(cond)` subscribes to the `finished` event of the current coroutine a callback that calls `cond.notify_all()`
(source/cocpp/sync/co_condition_variable.cpp:10-16). The event is published in `real_entry`, after the state of the coroutine has become `finished`
(source/cocpp/core/co_ctx.cpp:75-82).

One condition variable and any number of coroutines and threads. The mutex that goes with the condition variable is left out: it is released while the
lock of the condition variable is held and taken again after the wait, which only adds restrictions. The timed waits are left out (C20, C21). -/

namespace Verif.AtExit

/-- Where a coroutine or thread is. `run`: in its own code. `waiting`: in `wait` with the flag of the wait set. `woken`: the flag was removed, `wait`
has not returned. `pub n`: in `finished().pub()` with `n` callbacks to go. `notifying r k`: in `notify_all` with the lock of the condition variable,
before the waiters `r`; `k` is `none` if the program called it and the number of callbacks left if `pub` did. `done`: it has ended. (co_condition_variable.cpp:10-27, co_condition_variable.h:55-67.) -/
inductive Pc
  | run
  | waiting
  | woken
  | pub (n : Nat)
  | notifying (rest : List Nat) (k : Option Nat)
  | done
  deriving DecidableEq, Repr

/-- `waiters`, `lk`, `alive`: `waiters__`, the holder of `cv_lock__`, and whether the condition variable exists (co_condition_variable.h:29-31). `subs a`: the
callbacks in the `finished` event of `a`. `fin a`: its state is `finished` (for a thread: it has ended). `joined a`: somebody's `join` on `a` has
returned. `bad`: a destroyed condition variable was accessed. -/
structure State where
  pc : Nat → Pc
  waiters : List Nat
  lk : Option Nat
  subs : Nat → Nat
  fin : Nat → Bool
  joined : Nat → Bool
  alive : Bool
  bad : Bool

/-- A new condition variable (co_condition_variable.h:29-31), everybody in their own code. -/
def State.init : State := ⟨fun _ => .run, [], none, fun _ => 0, fun _ => false, fun _ => false, true, false⟩

/-- What happens. (Concerns co_condition_variable.cpp:10-27, co_condition_variable.h:29-67.) -/
inductive Act
  | atExit (a : Nat)
  | wait (a : Nat)
  | ret (a : Nat)
  | notify (a : Nat)
  | finish (a : Nat)
  | call (a : Nat)
  | wake (a : Nat)
  | clear (a : Nat)
  | last (a : Nat)
  | join (a b : Nat)
  | destroy (a : Nat)
  deriving DecidableEq, Repr

/-- What is observed: `w` is woken by `a`; a destroyed condition variable is accessed by `a`. (Concerns co_condition_variable.cpp:10-27, co_condition_variable.h:29-67.) -/
inductive Ev
  | woke (w a : Nat)
  | ub (a : Nat)
  deriving DecidableEq, Repr

/-- When the program destroys the condition variable. In all cases nobody is waiting on it and no `notify_all` that the program itself called is under
way. `woken`: that is all, which is what the C++ standard asks of a program. `joined`: all coroutines that called `notify_all_at_co_exit` have been
joined as well. `ended`: they have also left `finished().pub()`, which a program cannot find out. (Concerns co_condition_variable.cpp:10-27, co_condition_variable.h:29-67.) -/
inductive Rule
  | woken
  | joined
  | ended
  deriving DecidableEq, Repr

/-- May the condition variable be destroyed? `n` is the number of coroutines and threads. (Concerns co_condition_variable.cpp:10-27, co_condition_variable.h:29-67.) -/
def mayDestroy (n : Nat) (r : Rule) (s : State) : Bool :=
  (List.range n).all fun c =>
    (match s.pc c with
      | .waiting => false
      | .notifying _ none => false
      | _ => true) &&
    (match r with
      | .woken => true
      | .joined => s.subs c == 0 || s.joined c
      | .ended => s.subs c == 0 || s.pc c == .done)

/-- Where `notify_all` returns to: the program that called it, or the loop of `co_event::pub` (include/cocpp/event/co_event.h:48-55). -/
def back : Option Nat → Pc
  | none => .run
  | some m => .pub m

/-- One step, with `n` coroutines and threads, `co a` if `a` is a coroutine. The program does not use the condition variable after destroying it.

* `atExit`: co_condition_variable.cpp:10-16. `CoCurrentCtx()` of a thread is its idle coroutine.
* `wait`: co_condition_variable.h:55-67 up to `CoYield`; `ret` is what follows.
* `notify`, `wake`, `clear`: `notify_all`, co_condition_variable.cpp:18-27. `wake` is `leave_wait_resource_state` on one waiter, `clear` is
  `waiters__.clear()` with the release of the lock.
* `finish`: co_ctx.cpp:75-79; a thread just ends, nothing publishes the event of its idle coroutine.
* `call`, `last`: the loop of `co_event::pub`, include/cocpp/event/co_event.h:48-55. Other callbacks of the event are left out.
* `join`: source/cocpp/core/co_env.cpp:154-187, it returns when the state is `finished`. -/
def step (n : Nat) (co : Nat → Bool) (r : Rule) (s : State) (act : Act) : Option (State × List Ev) :=
  if s.bad then none else
  match act with
  | .atExit a => if a < n ∧ s.pc a = .run ∧ s.alive = true then some ({ s with subs := upd s.subs a (s.subs a + 1) }, []) else none
  | .wait a =>
    if a < n ∧ s.pc a = .run ∧ s.alive = true ∧ s.lk = none then
      some ({ s with pc := upd s.pc a .waiting, waiters := s.waiters ++ [a] }, []) else none
  | .ret a => if s.pc a = .woken then some ({ s with pc := upd s.pc a .run }, []) else none
  | .notify a =>
    if a < n ∧ s.pc a = .run ∧ s.alive = true ∧ s.lk = none then
      some ({ s with pc := upd s.pc a (.notifying s.waiters none), lk := some a }, []) else none
  | .finish a =>
    if a < n ∧ s.pc a = .run then
      some ({ s with pc := upd s.pc a (if co a then .pub (s.subs a) else .done), fin := upd s.fin a true }, []) else none
  | .call a =>
    match s.pc a with
    | .pub (k + 1) =>
      if s.alive = false then some ({ s with bad := true }, [.ub a])
      else if s.lk = none then some ({ s with pc := upd s.pc a (.notifying s.waiters (some k)), lk := some a }, [])
      else none
    | _ => none
  | .wake a =>
    match s.pc a with
    | .notifying (w :: rest) k =>
      if s.alive = false then some ({ s with bad := true }, [.ub a])
      else some ({ s with pc := upd (upd s.pc w (if s.pc w = .waiting then .woken else s.pc w)) a (.notifying rest k) }, [.woke w a])
    | _ => none
  | .clear a =>
    match s.pc a with
    | .notifying [] k =>
      if s.alive = false then some ({ s with bad := true }, [.ub a])
      else some ({ s with pc := upd s.pc a (back k), waiters := [], lk := none }, [])
    | _ => none
  | .last a => if s.pc a = .pub 0 then some ({ s with pc := upd s.pc a .done }, []) else none
  | .join a b => if a < n ∧ s.pc a = .run ∧ s.fin b = true then some ({ s with joined := upd s.joined b true }, []) else none
  | .destroy a => if a < n ∧ s.pc a = .run ∧ s.alive = true ∧ mayDestroy n r s = true then some ({ s with alive := false }, []) else none

variable {n : Nat} {co : Nat → Bool} {r : Rule}

/-- What holds in every reachable state: who is in `notify_all` holds the lock; who waits is in the list, and not yet passed by who is in `notify_all`; who
is past its own code is finished, and only coroutines publish. (Concerns co_condition_variable.cpp:10-27, co_condition_variable.h:29-67.) -/
structure Inv (n : Nat) (co : Nat → Bool) (s : State) : Prop where
  lock : ∀ a rest k, s.pc a = .notifying rest k → s.lk = some a
  holder : ∀ a, s.lk = some a → ∃ rest k, s.pc a = .notifying rest k
  listed : ∀ w, s.pc w = .waiting → w ∈ s.waiters
  ahead : ∀ a rest k w, s.pc a = .notifying rest k → s.pc w = .waiting → w ∈ rest
  finP : ∀ a k, s.pc a = .pub k → s.fin a = true ∧ co a = true
  finN : ∀ a rest k, s.pc a = .notifying rest (some k) → s.fin a = true ∧ co a = true ∧ k + 1 ≤ s.subs a
  cnt : ∀ a k, s.pc a = .pub k → k ≤ s.subs a
  low : ∀ a, s.pc a ≠ .run → a < n
  regs : ∀ a, s.subs a ≠ 0 → a < n

theorem inv_init : Inv n co State.init := by
  constructor <;> simp [State.init]

theorem inv_step (s : State) (act : Act) (s' : State) (es : List Ev) (hI : Inv n co s) (h : step n co r s act = some (s', es)) : Inv n co s' := by
  obtain ⟨h1, h2, h3, h4, h5, h6, h7, h8, h9⟩ := hI
  unfold step at h
  split at h
  · simp at h
  cases act with
  | atExit a =>
    simp only [Option.ite_none_right_eq_some, Option.some.injEq, Prod.mk.injEq] at h
    obtain ⟨⟨ha, hp, _⟩, rfl, rfl⟩ := h
    refine ⟨h1, h2, h3, h4, h5, ?_, ?_, h8, by simp only [upd_apply]; grind⟩
    · intro b rest k hb
      have : b ≠ a := by rintro rfl; simp [hp] at hb
      simpa [upd_apply, this] using h6 b rest k hb
    · intro b k hb
      have : b ≠ a := by rintro rfl; simp [hp] at hb
      simpa [upd_apply, this] using h7 b k hb
  | wait a =>
    simp only [Option.ite_none_right_eq_some, Option.some.injEq, Prod.mk.injEq] at h
    obtain ⟨⟨ha, hp, _, hl⟩, rfl, rfl⟩ := h
    have nn : ∀ b rest k, s.pc b ≠ .notifying rest k := by intro b rest k hb; simp [hl] at h1; exact h1 b rest k hb
    constructor <;> simp only [upd_apply] <;> grind
  | ret a =>
    simp only [Option.ite_none_right_eq_some, Option.some.injEq, Prod.mk.injEq] at h
    obtain ⟨hp, rfl, rfl⟩ := h
    constructor <;> simp only [upd_apply] <;> grind
  | notify a =>
    simp only [Option.ite_none_right_eq_some, Option.some.injEq, Prod.mk.injEq] at h
    obtain ⟨⟨ha, hp, _, hl⟩, rfl, rfl⟩ := h
    constructor <;> simp only [upd_apply] <;> first | grind | (intro b hb; obtain rfl : a = b := (by simpa using hb); exact ⟨_, _, if_pos rfl⟩)
  | finish a =>
    simp only [Option.ite_none_right_eq_some, Option.some.injEq, Prod.mk.injEq] at h
    obtain ⟨⟨ha, hp⟩, rfl, rfl⟩ := h
    constructor <;> simp only [upd_apply] <;> grind
  | call a =>
    simp only at h
    split at h
    · rename_i k hk
      split at h
      · simp only [Option.some.injEq, Prod.mk.injEq] at h
        obtain ⟨rfl, rfl⟩ := h
        exact ⟨h1, h2, h3, h4, h5, h6, h7, h8, h9⟩
      simp only [Option.ite_none_right_eq_some, Option.some.injEq, Prod.mk.injEq] at h
      obtain ⟨hl, rfl, rfl⟩ := h
      constructor <;> simp only [upd_apply] <;> first | grind | (intro b hb; obtain rfl : a = b := (by simpa using hb); exact ⟨_, _, if_pos rfl⟩)
    · simp at h
  | wake a =>
    simp only at h
    split at h
    · rename_i w rest k hk
      split at h
      · simp only [Option.some.injEq, Prod.mk.injEq] at h
        obtain ⟨rfl, rfl⟩ := h
        exact ⟨h1, h2, h3, h4, h5, h6, h7, h8, h9⟩
      simp only [Option.some.injEq, Prod.mk.injEq] at h
      obtain ⟨rfl, rfl⟩ := h
      constructor <;> simp only [upd_apply] <;> grind
    · simp at h
  | clear a =>
    simp only at h
    split at h
    · rename_i k hk
      split at h
      · simp only [Option.some.injEq, Prod.mk.injEq] at h
        obtain ⟨rfl, rfl⟩ := h
        exact ⟨h1, h2, h3, h4, h5, h6, h7, h8, h9⟩
      simp only [Option.some.injEq, Prod.mk.injEq] at h
      obtain ⟨rfl, rfl⟩ := h
      cases k <;> constructor <;> simp only [upd_apply, back] <;> grind
    · simp at h
  | last a =>
    simp only [Option.ite_none_right_eq_some, Option.some.injEq, Prod.mk.injEq] at h
    obtain ⟨hp, rfl, rfl⟩ := h
    constructor <;> simp only [upd_apply] <;> grind
  | join a b =>
    simp only [Option.ite_none_right_eq_some, Option.some.injEq, Prod.mk.injEq] at h
    obtain ⟨_, rfl, rfl⟩ := h
    exact ⟨h1, h2, h3, h4, h5, h6, h7, h8, h9⟩
  | destroy a =>
    simp only [Option.ite_none_right_eq_some, Option.some.injEq, Prod.mk.injEq] at h
    obtain ⟨_, rfl, rfl⟩ := h
    exact ⟨h1, h2, h3, h4, h5, h6, h7, h8, h9⟩

theorem inv_runs {s s' : State} {as : List Act} {es : List Ev} (hI : Inv n co s) (h : runs (step n co r) s as = some (s', es)) : Inv n co s' :=
  runs_inv (Inv n co) inv_step as s s' es hI h

/-- While `a`, that has called `notify_all_at_co_exit`, has not ended and `w` waits, a step wakes `w` or leaves things like this. -/
theorem tracked {a w : Nat} (s : State) (act : Act) (s' : State) (es : List Ev) (hI : Inv n co s) (hs : s.subs a ≠ 0) (hw : s.pc w = .waiting)
    (hd : s.pc a ≠ .done) (h0 : s.pc a ≠ .pub 0) (hco : co a = true) (h : step n co r s act = some (s', es)) :
    (∃ b, Ev.woke w b ∈ es) ∨ (s'.subs a ≠ 0 ∧ s'.pc w = .waiting ∧ s'.pc a ≠ .done ∧ s'.pc a ≠ .pub 0) := by
  obtain ⟨h1, h2, h3, h4, h5, h6, h7, h8, h9⟩ := hI
  unfold step at h
  split at h
  · simp at h
  cases act with
  | atExit b =>
    simp only [Option.ite_none_right_eq_some, Option.some.injEq, Prod.mk.injEq] at h
    obtain ⟨_, rfl, rfl⟩ := h
    simp only [upd_apply]; grind
  | wait b =>
    simp only [Option.ite_none_right_eq_some, Option.some.injEq, Prod.mk.injEq] at h
    obtain ⟨_, rfl, rfl⟩ := h
    simp only [upd_apply]; grind
  | ret b =>
    simp only [Option.ite_none_right_eq_some, Option.some.injEq, Prod.mk.injEq] at h
    obtain ⟨_, rfl, rfl⟩ := h
    simp only [upd_apply]; grind
  | notify b =>
    simp only [Option.ite_none_right_eq_some, Option.some.injEq, Prod.mk.injEq] at h
    obtain ⟨_, rfl, rfl⟩ := h
    simp only [upd_apply]; grind
  | finish b =>
    simp only [Option.ite_none_right_eq_some, Option.some.injEq, Prod.mk.injEq] at h
    obtain ⟨_, rfl, rfl⟩ := h
    simp only [upd_apply]; grind
  | call b =>
    simp only at h
    split at h
    · split at h
      · simp only [Option.some.injEq, Prod.mk.injEq] at h
        obtain ⟨rfl, rfl⟩ := h
        exact .inr ⟨hs, hw, hd, h0⟩
      simp only [Option.ite_none_right_eq_some, Option.some.injEq, Prod.mk.injEq] at h
      obtain ⟨hl, rfl, rfl⟩ := h
      simp only [upd_apply]; grind
    · simp at h
  | wake b =>
    simp only at h
    split at h
    · split at h
      · simp only [Option.some.injEq, Prod.mk.injEq] at h
        obtain ⟨rfl, rfl⟩ := h
        exact .inr ⟨hs, hw, hd, h0⟩
      simp only [Option.some.injEq, Prod.mk.injEq] at h
      obtain ⟨rfl, rfl⟩ := h
      rename_i v rest k hk _
      by_cases hv : w = v
      · exact .inl ⟨b, by simp [hv]⟩
      · right
        simp only [upd_apply]; grind
    · simp at h
  | clear b =>
    simp only at h
    split at h
    · split at h
      · simp only [Option.some.injEq, Prod.mk.injEq] at h
        obtain ⟨rfl, rfl⟩ := h
        exact .inr ⟨hs, hw, hd, h0⟩
      rename_i k hk _
      exact absurd (h4 b [] k w hk hw) (by simp)
    · simp at h
  | last b =>
    simp only [Option.ite_none_right_eq_some, Option.some.injEq, Prod.mk.injEq] at h
    obtain ⟨_, rfl, rfl⟩ := h
    simp only [upd_apply]; grind
  | join b c =>
    simp only [Option.ite_none_right_eq_some, Option.some.injEq, Prod.mk.injEq] at h
    obtain ⟨_, rfl, rfl⟩ := h
    exact .inr ⟨hs, hw, hd, h0⟩
  | destroy b =>
    simp only [Option.ite_none_right_eq_some, Option.some.injEq, Prod.mk.injEq] at h
    obtain ⟨_, rfl, rfl⟩ := h
    exact .inr ⟨hs, hw, hd, h0⟩

/-- What is registered stays registered. -/
theorem subs_mono {a : Nat} (s : State) (act : Act) (s' : State) (es : List Ev) (h : step n co r s act = some (s', es))
    (ha : s.subs a ≠ 0 ∨ act = .atExit a) : s'.subs a ≠ 0 := by
  unfold step at h
  split at h
  · simp at h
  cases act with
  | atExit b =>
    simp only [Option.ite_none_right_eq_some, Option.some.injEq, Prod.mk.injEq] at h
    obtain ⟨_, rfl, rfl⟩ := h
    simp only [upd_apply]; grind
  | call b | wake b | clear b =>
    replace ha : s.subs a ≠ 0 := by simpa using ha
    simp only at h
    split at h
    · split at h
      · simp only [Option.some.injEq, Prod.mk.injEq] at h
        obtain ⟨rfl, rfl⟩ := h
        exact ha
      · simp only [Option.ite_none_right_eq_some, Option.some.injEq, Prod.mk.injEq] at h
        first
          | (obtain ⟨_, rfl, rfl⟩ := h; exact ha)
          | (obtain ⟨rfl, rfl⟩ := h; exact ha)
    · simp at h
  | _ =>
    replace ha : s.subs a ≠ 0 := by simpa using ha
    simp only [Option.ite_none_right_eq_some, Option.some.injEq, Prod.mk.injEq] at h
    obtain ⟨_, rfl, rfl⟩ := h
    exact ha

/-- Who has called `notify_all_at_co_exit` is registered. -/
theorem registered {a : Nat} (as : List Act) : ∀ (s s' : State) (es : List Ev), runs (step n co r) s as = some (s', es) →
    (s.subs a ≠ 0 ∨ Act.atExit a ∈ as) → s'.subs a ≠ 0 := by
  induction as with
  | nil =>
    intro s s' es h ha
    simp only [runs, Option.some.injEq, Prod.mk.injEq] at h
    simpa [← h.1] using ha
  | cons act as ih =>
    intro s s' es h ha
    obtain ⟨s1, e1, e2, st, rs, rfl⟩ := runs_cons h
    refine ih s1 s' e2 rs ?_
    rcases ha with ha | ha
    · exact .inl (subs_mono s act s1 e1 st (.inl ha))
    · rcases List.mem_cons.1 ha with e | e
      · exact .inl (subs_mono s act s1 e1 st (.inr e.symm))
      · exact .inr e

/-- **C120**: when a coroutine that has called `notify_all_at_co_exit` has ended, everybody who was waiting on the condition variable at any moment
between the call and its end has been woken, whatever else happens to the condition variable meanwhile. -/
theorem C120_wakes {s s' : State} {as bs : List Act} {es fs : List Ev} {a w : Nat} (hr : runs (step n co r) State.init as = some (s, es))
    (hco : co a = true) (hm : Act.atExit a ∈ as) (ha : s.pc a = .run) (hw : s.pc w = .waiting)
    (h : runs (step n co r) s bs = some (s', fs)) (hd : s'.pc a = .done) : ∃ b, Ev.woke w b ∈ fs := by
  have key : ∀ (bs : List Act) (s : State) (fs : List Ev), Inv n co s → s.subs a ≠ 0 → s.pc w = .waiting → s.pc a ≠ .done → s.pc a ≠ .pub 0 →
      runs (step n co r) s bs = some (s', fs) → ∃ b, Ev.woke w b ∈ fs := by
    intro bs
    induction bs with
    | nil =>
      intro s fs _ _ _ hd' _ h
      simp only [runs, Option.some.injEq, Prod.mk.injEq] at h
      exact absurd (h.1 ▸ hd) hd'
    | cons act bs ih =>
      intro s fs hI hs hw hd' h0 h
      obtain ⟨s1, e1, e2, st, rs, rfl⟩ := runs_cons h
      rcases tracked s act s1 e1 hI hs hw hd' h0 hco st with ⟨b, hb⟩ | ⟨q1, q2, q3, q4⟩
      · exact ⟨b, List.mem_append_left _ hb⟩
      · obtain ⟨b, hb⟩ := ih s1 e2 (inv_step s act s1 e1 hI st) q1 q2 q3 q4 rs
        exact ⟨b, List.mem_append_right _ hb⟩
  exact key bs s fs (inv_runs inv_init hr) (registered as _ _ _ hr (.inr hm)) hw (by simp [ha]) (by simp [ha]) h

/-- Case for C120: coroutine 1 registers, 0 and 2 wait, 1 ends: both are woken by 1. -/
example : ∃ s, runs (step 3 (fun a => a == 1) .woken) State.init
    [.atExit 1, .wait 0, .wait 2, .finish 1, .call 1, .wake 1, .wake 1, .clear 1, .last 1, .ret 0, .ret 2] =
      some (s, [.woke 0 1, .woke 2 1]) ∧ s.pc 1 = .done ∧ s.pc 2 = .run := ⟨_, rfl, rfl, rfl⟩

/-- What holds as long as the program itself does not notify: who was woken was so by the end of a registered coroutine. (Concerns co_condition_variable.cpp:10-27, co_condition_variable.h:29-67.) -/
structure Quiet (co : Nat → Bool) (s : State) : Prop where
  nobody : ∀ a rest, s.pc a ≠ .notifying rest none
  why : ∀ w, s.pc w = .woken → ∃ x, co x = true ∧ s.fin x = true ∧ s.subs x ≠ 0

theorem quiet_init : Quiet co State.init := by constructor <;> simp [State.init]

/-- A step that is not `notify` keeps `Quiet`, and what is finished or registered stays so. -/
theorem quiet_step (s : State) (act : Act) (s' : State) (es : List Ev) (hI : Inv n co s) (hQ : Quiet co s) (hn : ∀ a, act ≠ .notify a)
    (h : step n co r s act = some (s', es)) :
    Quiet co s' ∧ (∀ x, s.fin x = true → s'.fin x = true) ∧ (∀ x, s.subs x ≠ 0 → s'.subs x ≠ 0) ∧
      (∀ x, s'.subs x ≠ 0 → s.subs x ≠ 0 ∨ act = .atExit x) := by
  obtain ⟨h1, h2, h3, h4, h5, h6, h7, h8, h9⟩ := hI
  obtain ⟨q1, q2⟩ := hQ
  unfold step at h
  split at h
  · simp at h
  cases act with
  | atExit b =>
    simp only [Option.ite_none_right_eq_some, Option.some.injEq, Prod.mk.injEq] at h
    obtain ⟨_, rfl, rfl⟩ := h
    refine ⟨⟨q1, ?_⟩, fun _ hx => hx, ?_, ?_⟩
    · intro w hw
      obtain ⟨x, hx, hf, hs⟩ := q2 w hw
      exact ⟨x, hx, hf, by simp only [upd_apply]; grind⟩
    · intro x; simp only [upd_apply]; grind
    · intro x; simp only [upd_apply]; grind
  | notify b => exact absurd rfl (hn b)
  | wait b =>
    simp only [Option.ite_none_right_eq_some, Option.some.injEq, Prod.mk.injEq] at h
    obtain ⟨_, rfl, rfl⟩ := h
    refine ⟨⟨?_, ?_⟩, fun _ hx => hx, fun _ hx => hx, fun _ hx => .inl hx⟩ <;> simp only [upd_apply] <;> grind
  | ret b =>
    simp only [Option.ite_none_right_eq_some, Option.some.injEq, Prod.mk.injEq] at h
    obtain ⟨_, rfl, rfl⟩ := h
    refine ⟨⟨?_, ?_⟩, fun _ hx => hx, fun _ hx => hx, fun _ hx => .inl hx⟩ <;> simp only [upd_apply] <;> grind
  | finish b =>
    simp only [Option.ite_none_right_eq_some, Option.some.injEq, Prod.mk.injEq] at h
    obtain ⟨_, rfl, rfl⟩ := h
    refine ⟨⟨?_, ?_⟩, ?_, fun _ hx => hx, fun _ hx => .inl hx⟩
    · simp only [upd_apply]; grind
    · intro w hw
      have : s.pc w = .woken := by
        simp only [upd_apply] at hw; grind
      obtain ⟨x, hx, hf, hs⟩ := q2 w this
      exact ⟨x, hx, by simp only [upd_apply]; grind, hs⟩
    · simp only [upd_apply]; grind
  | call b =>
    simp only at h
    split at h
    · split at h
      · simp only [Option.some.injEq, Prod.mk.injEq] at h
        obtain ⟨rfl, rfl⟩ := h
        exact ⟨⟨q1, q2⟩, fun _ hx => hx, fun _ hx => hx, fun _ hx => .inl hx⟩
      simp only [Option.ite_none_right_eq_some, Option.some.injEq, Prod.mk.injEq] at h
      obtain ⟨hl, rfl, rfl⟩ := h
      refine ⟨⟨?_, ?_⟩, fun _ hx => hx, fun _ hx => hx, fun _ hx => .inl hx⟩ <;> simp only [upd_apply] <;> grind
    · simp at h
  | wake b =>
    simp only at h
    split at h
    · split at h
      · simp only [Option.some.injEq, Prod.mk.injEq] at h
        obtain ⟨rfl, rfl⟩ := h
        exact ⟨⟨q1, q2⟩, fun _ hx => hx, fun _ hx => hx, fun _ hx => .inl hx⟩
      simp only [Option.some.injEq, Prod.mk.injEq] at h
      obtain ⟨rfl, rfl⟩ := h
      rename_i v rest k hk _
      refine ⟨⟨?_, ?_⟩, fun _ hx => hx, fun _ hx => hx, fun _ hx => .inl hx⟩
      · simp only [upd_apply]; grind
      · intro w _
        cases k with
        | none => exact absurd hk (q1 b _)
        | some k =>
          obtain ⟨f1, f2, f3⟩ := h6 b _ k hk
          exact ⟨b, f2, f1, by show s.subs b ≠ 0; omega⟩
    · simp at h
  | clear b =>
    simp only at h
    split at h
    · split at h
      · simp only [Option.some.injEq, Prod.mk.injEq] at h
        obtain ⟨rfl, rfl⟩ := h
        exact ⟨⟨q1, q2⟩, fun _ hx => hx, fun _ hx => hx, fun _ hx => .inl hx⟩
      simp only [Option.some.injEq, Prod.mk.injEq] at h
      obtain ⟨rfl, rfl⟩ := h
      rename_i k hk _
      cases k <;> refine ⟨⟨?_, ?_⟩, fun _ hx => hx, fun _ hx => hx, fun _ hx => .inl hx⟩ <;> simp only [upd_apply, back] <;> grind
    · simp at h
  | last b =>
    simp only [Option.ite_none_right_eq_some, Option.some.injEq, Prod.mk.injEq] at h
    obtain ⟨_, rfl, rfl⟩ := h
    refine ⟨⟨?_, ?_⟩, fun _ hx => hx, fun _ hx => hx, fun _ hx => .inl hx⟩ <;> simp only [upd_apply] <;> grind
  | join b c =>
    simp only [Option.ite_none_right_eq_some, Option.some.injEq, Prod.mk.injEq] at h
    obtain ⟨_, rfl, rfl⟩ := h
    exact ⟨⟨q1, q2⟩, fun _ hx => hx, fun _ hx => hx, fun _ hx => .inl hx⟩
  | destroy b =>
    simp only [Option.ite_none_right_eq_some, Option.some.injEq, Prod.mk.injEq] at h
    obtain ⟨_, rfl, rfl⟩ := h
    exact ⟨⟨q1, q2⟩, fun _ hx => hx, fun _ hx => hx, fun _ hx => .inl hx⟩

/-- **C120**: if the program does not notify by itself, `wait` returns only when a coroutine that has called `notify_all_at_co_exit` has finished. -/
theorem C120_only_then {s : State} {as : List Act} {es : List Ev} {w : Nat} (h : runs (step n co r) State.init as = some (s, es))
    (hn : ∀ a, Act.notify a ∉ as) (hw : Act.ret w ∈ as) : ∃ x, co x = true ∧ s.fin x = true ∧ Act.atExit x ∈ as := by
  have key : ∀ (as : List Act) (s0 : State) (es : List Ev), Inv n co s0 → Quiet co s0 → (∀ a, Act.notify a ∉ as) →
      runs (step n co r) s0 as = some (s, es) →
      (∀ x, s0.fin x = true → s.fin x = true) ∧ (∀ x, s0.subs x ≠ 0 → s.subs x ≠ 0) ∧ (∀ x, s.subs x ≠ 0 → s0.subs x ≠ 0 ∨ Act.atExit x ∈ as) ∧
      (Act.ret w ∈ as → ∃ x, co x = true ∧ s.fin x = true ∧ s.subs x ≠ 0) := by
    intro as
    induction as with
    | nil =>
      intro s0 es _ _ _ h
      simp only [runs, Option.some.injEq, Prod.mk.injEq] at h
      obtain ⟨rfl, _⟩ := h
      exact ⟨fun _ hx => hx, fun _ hx => hx, fun _ hx => .inl hx, by simp⟩
    | cons act as ih =>
      intro s0 es hI hQ hn h
      obtain ⟨s1, e1, e2, st, rs, rfl⟩ := runs_cons h
      obtain ⟨g1, g2, g3, g4⟩ := quiet_step s0 act s1 e1 hI hQ (fun a e => hn a (by simp [e])) st
      obtain ⟨i1, i2, i3, i4⟩ := ih s1 e2 (inv_step s0 act s1 e1 hI st) g1 (fun a m => hn a (List.mem_cons_of_mem _ m)) rs
      refine ⟨fun x hx => i1 x (g2 x hx), fun x hx => i2 x (g3 x hx), ?_, ?_⟩
      · intro x hx
        rcases i3 x hx with q | q
        · rcases g4 x q with q | q
          · exact .inl q
          · exact .inr (by simp [q])
        · exact .inr (List.mem_cons_of_mem _ q)
      · intro hm
        rcases List.mem_cons.1 hm with e | e
        · subst e
          have : s0.pc w = .woken := by
            unfold step at st
            split at st
            · simp at st
            · simp only [Option.ite_none_right_eq_some] at st
              exact st.1
          obtain ⟨x, hx, hf, hs⟩ := hQ.why w this
          exact ⟨x, hx, i1 x (g2 x hf), i2 x (g3 x hs)⟩
        · exact i4 e
  obtain ⟨_, _, k3, k4⟩ := key as State.init es inv_init quiet_init hn h
  obtain ⟨x, hx, hf, hs⟩ := k4 hw
  rcases k3 x hs with q | q
  · simp [State.init] at q
  · exact ⟨x, hx, hf, q⟩

/-- Case for C120: a wait that ends, in a run without any `notify_all` of the program. -/
example : ∃ s es, runs (step 2 (fun a => a == 1) .woken) State.init
    [.wait 0, .atExit 1, .finish 1, .call 1, .wake 1, .ret 0] = some (s, es) ∧ s.fin 1 = true ∧ s.pc 1 = .notifying [] (some 0) :=
  ⟨_, _, rfl, rfl, rfl⟩

/-- **C120 is false for threads**: if only threads call `notify_all_at_co_exit`, nobody who waits ever returns on account of that. -/
theorem C120_thread_never {s : State} {as : List Act} {es : List Ev} {w : Nat} (h : runs (step n co r) State.init as = some (s, es))
    (hn : ∀ a, Act.notify a ∉ as) (ht : ∀ x, Act.atExit x ∈ as → co x = false) : Act.ret w ∉ as := by
  intro hw
  obtain ⟨x, hx, _, hm⟩ := C120_only_then h hn hw
  simp [ht x hm] at hx

/-- Case for C120: a thread registers and ends, the waiter stays where it is. -/
example : ∃ s es, runs (step 2 (fun _ => false) .woken) State.init [.atExit 1, .wait 0, .finish 1] = some (s, es) ∧
    s.pc 1 = .done ∧ s.pc 0 = .waiting := ⟨_, _, rfl, rfl, rfl⟩

/-- The steps that the library takes by itself. (Concerns co_condition_variable.cpp:10-27, co_condition_variable.h:29-67.) -/
def Act.lib : Act → Bool
  | .call _ | .wake _ | .clear _ | .last _ => true
  | _ => false

/-- Who is in `notify_all` can leave it, and a coroutine in `pub` stays where it is. -/
theorem leave_notify {a b : Nat} {m : Nat} (rest : List Nat) : ∀ (s : State) (k : Option Nat), Inv n co s → s.alive = true → s.bad = false →
    s.pc b = .notifying rest k → (a ≠ b → s.pc a = .pub m) →
    ∃ as s' es, runs (step n co r) s as = some (s', es) ∧ (∀ x ∈ as, x.lib = true) ∧ s'.lk = none ∧ s'.alive = true ∧ s'.bad = false ∧
      s'.pc b = back k ∧ (a ≠ b → s'.pc a = .pub m) := by
  induction rest with
  | nil =>
    intro s k hI hal hb hp ha
    refine ⟨[.clear b], { s with pc := upd s.pc b (back k), waiters := [], lk := none }, [],
      by simp [runs, step, hb, hp, hal], by simp [Act.lib], rfl, hal, hb, by simp [upd_apply], ?_⟩
    intro hne
    simp only [upd_apply, hne, if_false]
    exact ha hne
  | cons w rest ih =>
    intro s k hI hal hb hp ha
    have st : step n co r s (.wake b) =
        some ({ s with pc := upd (upd s.pc w (if s.pc w = .waiting then .woken else s.pc w)) b (.notifying rest k) }, [.woke w b]) := by
      simp [step, hb, hp, hal]
    obtain ⟨as, s', es, h1, h2, h3⟩ := ih _ k (inv_step _ _ _ _ hI st) hal hb (by simp [upd_apply]) (by
      intro hne
      have := ha hne
      simp only [upd_apply, hne, if_false]
      grind)
    exact ⟨.wake b :: as, s', [.woke w b] ++ es, by simp only [runs, st, h1], by simpa [Act.lib] using h2, h3⟩

/-- **C120**: the notification is not stuck: while the condition variable exists, a coroutine that has finished gets to the end of its callbacks by steps of the
library alone, whoever else is in `notify_all`. -/
theorem C120_ends {s : State} {as : List Act} {es : List Ev} {a k : Nat} (hr : runs (step n co r) State.init as = some (s, es))
    (hal : s.alive = true) (hb : s.bad = false) (ha : s.pc a = .pub k) :
    ∃ bs s' fs, runs (step n co r) s bs = some (s', fs) ∧ (∀ x ∈ bs, x.lib = true) ∧ s'.pc a = .done := by
  have hI := inv_runs inv_init hr
  clear hr
  induction k generalizing s with
  | zero => exact ⟨[.last a], { s with pc := upd s.pc a .done }, [], by simp [runs, step, hb, ha], by simp [Act.lib], by simp [upd_apply]⟩
  | succ k ih =>
    have free : ∃ bs s' fs, runs (step n co r) s bs = some (s', fs) ∧ (∀ x ∈ bs, x.lib = true) ∧ s'.lk = none ∧ s'.alive = true ∧ s'.bad = false ∧
        s'.pc a = .pub (k + 1) := by
      cases hl : s.lk with
      | none => exact ⟨[], s, [], rfl, by simp, hl, hal, hb, ha⟩
      | some b =>
        obtain ⟨rest, j, hj⟩ := hI.holder b hl
        have hne : a ≠ b := by rintro rfl; simp [ha] at hj
        obtain ⟨bs, s', fs, q1, q2, q3, q4, q5, _, q7⟩ := leave_notify (a := a) (m := k + 1) (r := r) rest s j hI hal hb hj (fun _ => ha)
        exact ⟨bs, s', fs, q1, q2, q3, q4, q5, q7 hne⟩
    obtain ⟨bs, s1, fs, q1, q2, q3, q4, q5, q6⟩ := free
    have st : step n co r s1 (.call a) = some ({ s1 with pc := upd s1.pc a (.notifying s1.waiters (some k)), lk := some a }, []) := by
      simp [step, q3, q4, q5, q6]
    have hI1 := inv_runs hI q1
    obtain ⟨cs, s2, gs, p1, p2, _, p4, p5, p6, _⟩ := leave_notify (a := a) (b := a) (m := 0) (r := r) s1.waiters _ (some k) (inv_step _ _ _ _ hI1 st) q4 q5
      (by simp [upd_apply]) (by simp)
    have r1 : runs (step n co r) s1 (.call a :: cs) = some (s2, gs) := by simp only [runs, st, p1]; rfl
    obtain ⟨ds, s3, hs, t1, t2, t3⟩ := ih p4 p5 p6 (inv_runs hI1 r1)
    refine ⟨bs ++ (.call a :: cs) ++ ds, s3, _, runs_append (runs_append q1 r1) t1, ?_, t3⟩
    intro x hx
    simp only [List.mem_append, List.mem_cons] at hx
    rcases hx with (hx | rfl | hx) | hx
    · exact q2 x hx
    · rfl
    · exact p2 x hx
    · exact t2 x hx

/-- Case for C120: two coroutines end at the same time, one with two callbacks; it has to let the other one finish first. -/
example : ∃ s es, runs (step 3 (fun _ => true) .woken) State.init
    [.atExit 1, .atExit 1, .atExit 2, .wait 0, .finish 1, .finish 2, .call 2] = some (s, es) ∧ s.pc 1 = .pub 2 ∧ s.lk = some 2 ∧
    step 3 (fun _ => true) .woken s (.call 1) = none := ⟨_, _, rfl, rfl, rfl, rfl⟩

/-- What holds if the condition variable is destroyed only when the coroutines have left `pub`. (Concerns co_condition_variable.cpp:10-27, co_condition_variable.h:29-67.) -/
def Safe (s : State) : Prop :=
  s.bad = false ∧ (s.alive = false → ∀ c, (s.subs c = 0 ∨ s.pc c = .done) ∧ (∀ rest k, s.pc c ≠ .notifying rest k) ∧ ∀ k, s.pc c ≠ .pub (k + 1))

theorem safe_step (s : State) (act : Act) (s' : State) (es : List Ev) (hI : Inv n co s) (hS : Safe s) (h : step n co .ended s act = some (s', es)) :
    Safe s' := by
  obtain ⟨h1, h2, h3, h4, h5, h6, h7, h8, h9⟩ := hI
  obtain ⟨hb, hd⟩ := hS
  unfold step at h
  split at h
  · simp at h
  cases act with
  | atExit b =>
    simp only [Option.ite_none_right_eq_some, Option.some.injEq, Prod.mk.injEq] at h
    obtain ⟨_, rfl, rfl⟩ := h
    exact ⟨hb, fun hf => by simp_all⟩
  | wait b =>
    simp only [Option.ite_none_right_eq_some, Option.some.injEq, Prod.mk.injEq] at h
    obtain ⟨_, rfl, rfl⟩ := h
    exact ⟨hb, fun hf => by simp_all⟩
  | notify b =>
    simp only [Option.ite_none_right_eq_some, Option.some.injEq, Prod.mk.injEq] at h
    obtain ⟨_, rfl, rfl⟩ := h
    exact ⟨hb, fun hf => by simp_all⟩
  | ret b =>
    simp only [Option.ite_none_right_eq_some, Option.some.injEq, Prod.mk.injEq] at h
    obtain ⟨_, rfl, rfl⟩ := h
    refine ⟨hb, fun hf c => ?_⟩
    have := hd hf c
    simp only [upd_apply]; grind
  | finish b =>
    simp only [Option.ite_none_right_eq_some, Option.some.injEq, Prod.mk.injEq] at h
    obtain ⟨_, rfl, rfl⟩ := h
    refine ⟨hb, fun hf c => ?_⟩
    have := hd hf c
    simp only [upd_apply]; grind
  | call b =>
    simp only at h
    split at h
    · rename_i k hk
      have hal : s.alive = true := by
        refine Decidable.byContradiction fun hc => ?_
        exact (hd (by simpa using hc) b).2.2 k hk
      simp only [hal, Bool.true_eq_false, if_false, Option.ite_none_right_eq_some, Option.some.injEq, Prod.mk.injEq] at h
      obtain ⟨_, rfl, rfl⟩ := h
      exact ⟨hb, fun hf => by simp_all⟩
    · simp at h
  | wake b =>
    simp only at h
    split at h
    · rename_i w rest k hk
      have hal : s.alive = true := by
        refine Decidable.byContradiction fun hc => ?_
        exact (hd (by simpa using hc) b).2.1 _ k hk
      simp only [hal, Bool.true_eq_false, if_false, Option.some.injEq, Prod.mk.injEq] at h
      obtain ⟨rfl, rfl⟩ := h
      exact ⟨hb, fun hf => by simp_all⟩
    · simp at h
  | clear b =>
    simp only at h
    split at h
    · rename_i k hk
      have hal : s.alive = true := by
        refine Decidable.byContradiction fun hc => ?_
        exact (hd (by simpa using hc) b).2.1 _ k hk
      simp only [hal, Bool.true_eq_false, if_false, Option.some.injEq, Prod.mk.injEq] at h
      obtain ⟨rfl, rfl⟩ := h
      exact ⟨hb, fun hf => by simp_all⟩
    · simp at h
  | last b =>
    simp only [Option.ite_none_right_eq_some, Option.some.injEq, Prod.mk.injEq] at h
    obtain ⟨_, rfl, rfl⟩ := h
    refine ⟨hb, fun hf c => ?_⟩
    have := hd hf c
    simp only [upd_apply]; grind
  | join b c =>
    simp only [Option.ite_none_right_eq_some, Option.some.injEq, Prod.mk.injEq] at h
    obtain ⟨_, rfl, rfl⟩ := h
    exact ⟨hb, hd⟩
  | destroy b =>
    simp only [Option.ite_none_right_eq_some, Option.some.injEq, Prod.mk.injEq] at h
    obtain ⟨⟨_, _, _, hm⟩, rfl, rfl⟩ := h
    refine ⟨hb, fun _ c => ?_⟩
    simp only [mayDestroy, List.all_eq_true, List.mem_range, Bool.and_eq_true, Bool.or_eq_true, beq_iff_eq] at hm
    have run : ∀ x, ¬ x < n → s.pc x = .run := fun x hx => Decidable.byContradiction fun hc => hx (h8 x hc)
    by_cases hc : c < n
    · obtain ⟨m1, m2⟩ := hm c hc
      refine ⟨m2, ?_, ?_⟩
      · intro rest k hk
        change s.pc c = _ at hk
        cases k with
        | none => simp [hk] at m1
        | some k =>
          have := (h6 c rest k hk).2.2
          rcases m2 with m2 | m2
          · omega
          · simp [hk] at m2
      · intro k hk
        change s.pc c = _ at hk
        have := h7 c _ hk
        rcases m2 with m2 | m2
        · omega
        · simp [hk] at m2
    · refine ⟨.inl (Decidable.byContradiction fun h0 => hc (h9 c h0)), ?_, ?_⟩ <;> intros <;> (change s.pc c ≠ _) <;> simp [run c hc]

/-- **C120, memory safety, partial**: the condition variable is not accessed after its destruction if it is destroyed when nobody waits and the coroutines
that called `notify_all_at_co_exit` have left `finished().pub()`. Missing: the program has no means to find that out; see the next theorems. -/
theorem C120_safe_partial {s : State} {as : List Act} {es : List Ev} (h : runs (step n co .ended) State.init as = some (s, es)) : s.bad = false := by
  have := runs_inv (fun s => Inv n co s ∧ Safe s) (fun s act s' es hI st => ⟨inv_step s act s' es hI.1 st, safe_step s act s' es hI.1 hI.2 st⟩)
    as State.init s es ⟨inv_init, rfl, by simp [State.init]⟩ h
  exact this.2.1

/-- Case for C120: a destruction after the end. -/
example : ∃ s es, runs (step 2 (fun a => a == 1) .ended) State.init
    [.atExit 1, .wait 0, .finish 1, .call 1, .wake 1, .ret 0, .clear 1, .last 1, .destroy 0] = some (s, es) ∧ s.alive = false ∧ s.bad = false :=
  ⟨_, _, rfl, rfl, rfl⟩

/-- **C120 is false, memory safety**: whenever `join` has returned for all who called `notify_all_at_co_exit`, nobody waits, and one of them still has a
callback to run, destroying the condition variable makes the callback access it. `join` asks only for the state `finished`, which is set before. -/
theorem C120_joined_uses_freed {s : State} {as : List Act} {es : List Ev} {d a k : Nat} (_hr : runs (step n co .joined) State.init as = some (s, es))
    (hal : s.alive = true) (hb : s.bad = false) (hd : d < n) (hp : s.pc d = .run) (hm : mayDestroy n .joined s = true) (ha : s.pc a = .pub (k + 1)) :
    ∃ s', runs (step n co .joined) s [.destroy d, .call a] = some (s', [.ub a]) := by
  refine ⟨{ s with alive := false, bad := true }, ?_⟩
  simp [runs, step, hal, hb, hd, hp, hm, ha]

/-- Such a state is reached: coroutine 1 calls `notify_all_at_co_exit` and finishes, 0 joins it. -/
example : ∃ s es, runs (step 2 (fun a => a == 1) .joined) State.init [.atExit 1, .finish 1, .join 0 1] = some (s, es) ∧ s.alive = true ∧ s.bad = false ∧
    s.pc 0 = .run ∧ mayDestroy 2 .joined s = true ∧ s.pc 1 = .pub 1 := ⟨_, _, rfl, rfl, rfl, rfl, rfl, rfl⟩

/-- **C120 is false, memory safety**: whenever everybody who waited has been woken, by the end of a coroutine, the program may destroy the condition
variable (by the rule of the C++ standard); if it does so before that coroutine has left `notify_all`, a destroyed object is accessed. -/
theorem C120_woken_uses_freed {s : State} {as : List Act} {es : List Ev} {d a k : Nat} (_hr : runs (step n co .woken) State.init as = some (s, es))
    (hal : s.alive = true) (hb : s.bad = false) (hd : d < n) (hp : s.pc d = .run) (hm : mayDestroy n .woken s = true) (ha : s.pc a = .notifying [] (some k)) :
    ∃ s', runs (step n co .woken) s [.destroy d, .clear a] = some (s', [.ub a]) := by
  refine ⟨{ s with alive := false, bad := true }, ?_⟩
  simp [runs, step, hal, hb, hd, hp, hm, ha]

/-- Such a state is reached by the project's own test (test/sync.cpp:265-282): a coroutine registers, its creator waits and returns. -/
example : ∃ s es, runs (step 2 (fun a => a == 1) .woken) State.init [.atExit 1, .wait 0, .finish 1, .call 1, .wake 1, .ret 0] = some (s, es) ∧
    s.alive = true ∧ s.bad = false ∧ s.pc 0 = .run ∧ mayDestroy 2 .woken s = true ∧ s.pc 1 = .notifying [] (some 0) :=
  ⟨_, _, rfl, rfl, rfl, rfl, rfl, rfl⟩

end Verif.AtExit
