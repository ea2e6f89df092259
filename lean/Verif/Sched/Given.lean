import Verif.Base.Lts

/-! # C122: the life of what a coroutine was given

The function and the arguments given to a coroutine are kept in a `std::function`, which is copied several times (include/cocpp/co/co_co.h:103-121,
source/cocpp/core/co_manager.cpp:421-440, co_ctx_factory.cpp:15-31, co_ctx.cpp:52-58) and once more for the call: `ctx->entry()` returns a copy
(co_ctx.cpp:60-63, 69). One env with `n` coroutines, created by other threads.

Left out: the lambda from which the first `std::function` is moved; exceptions while copying; the end of the program; coroutines that move to other envs. -/

namespace Verif.Given

/-- The copies: the variable `entry` of `co::init__` (co_co.h:106), the parameters of `create_and_schedule_ctx` (co_manager.cpp:421), of `create_ctx`
(co_ctx_factory.cpp:15) and of the constructor of `co_ctx` (co_ctx.cpp:52), the member `entry__` (co_ctx.cpp:55), and the copy that is called (co_ctx.cpp:69). -/
inductive Copy
  | loc | param | fac | ctor | member | call
  deriving DecidableEq, Repr

/-- A coroutine: not in the env yet; never run; running; interrupted or between two switches; waiting for something; its function has ended; destroyed. (Concerns co_co.h:103-121, co_ctx_factory.cpp:15-45, co_ctx.cpp:52-83.) -/
inductive Co
  | off | ready | running | suspended | blocked | ended | freed
  deriving DecidableEq, Repr

/-- `pc c`: how far the constructor of the handle of `c` is. `locked c`: `CO_CTX_FLAG_LOCKED`. `alive c k`: copy `k` of what `c` was given exists. `cur`: `curr_ctx__`.
`asleep`: the thread of the env sleeps in `sleep_if_need__`. `sweep`: it is in `remove_detached_ctx__` with these coroutines left to look at. (co_ctx.h:36-63, co_env.h:58-159.) -/
structure State where
  pc : Nat → Nat
  co : Nat → Co
  locked : Nat → Bool
  alive : Nat → Copy → Bool
  cur : Option Nat
  asleep : Bool
  sweep : Option (List Nat)

/-- No coroutine yet; the env has just been made and sleeps. (Concerns co_co.h:103-121, co_ctx_factory.cpp:15-45, co_ctx.cpp:52-83.) -/
def State.init : State := ⟨fun _ => 0, fun _ => .off, fun _ => false, fun _ _ => false, none, true, none⟩

/-- What happens. (Concerns co_co.h:103-121, co_ctx_factory.cpp:15-45, co_ctx.cpp:52-83.) -/
inductive Act
  | create (c : Nat)
  | sched
  | look
  | switch (c : Nat)
  | idle
  | sleep
  | block (c : Nat)
  | unblock (c : Nat)
  | finish (c : Nat)
  | letGo (c : Nat)
  deriving DecidableEq, Repr

/-- Copy `k` of what `c` was given is made, or destroyed. (Concerns co_co.h:103-121, co_ctx_factory.cpp:15-45, co_ctx.cpp:52-83.) -/
inductive Ev
  | made (c : Nat) (k : Copy)
  | gone (c : Nat) (k : Copy)
  deriving DecidableEq, Repr

/-- What the constructor of a handle does to the copies, step by step (the places given at `Copy`); at step 7 the coroutine is given to the env. (Concerns co_co.h:103-121, co_ctx_factory.cpp:15-45, co_ctx.cpp:52-83.) -/
def creation : Nat → Option (Copy × Bool)
  | 0 => some (.loc, true)
  | 1 => some (.param, true)
  | 2 => some (.fac, true)
  | 3 => some (.ctor, true)
  | 4 => some (.member, true)
  | 5 => some (.ctor, false)
  | 6 => some (.fac, false)
  | 8 => some (.param, false)
  | 9 => some (.loc, false)
  | _ => none

/-- Change one copy. (Concerns co_co.h:103-121, co_ctx_factory.cpp:15-45, co_ctx.cpp:52-83.) -/
def set (f : Nat → Copy → Bool) (c : Nat) (k : Copy) (b : Bool) : Nat → Copy → Bool :=
  fun d l => if d = c ∧ l = k then b else f d l

/-- Can the env run this coroutine? (`can_schedule`, co_ctx.cpp:141-144.) -/
def Co.can : Co → Bool
  | .ready | .suspended | .running => true
  | _ => false

/-- One step.

* `create c`: the next step of the constructor (see `creation`). Step 7: `lock_destroy`, `add_ctx` with `wake_up` (co_manager.cpp:425-438, co_env.cpp:58-97).
* `sched`: `schedule_switch` begins, called by the current coroutine or by the loop of the thread (co_env.cpp:311-315, 388-410); a copy of the list is taken.
* `look`: `remove_detached_ctx__` looks at one coroutine and destroys it if it has ended, is not locked, and is not the current one (co_env.cpp:201-214).
* `switch c`, `idle`: the next coroutine is chosen (co_env.cpp:527-548); the idle coroutine if there is none. The first switch to a coroutine makes the copy that is called.
* `sleep`: the idle coroutine runs and nothing can be scheduled: `sleep_if_need__` (co_env.cpp:410, 519-525, 667-675).
* `block c`, `unblock c`: the current coroutine waits for something; it is woken, with `wake_up` (co_ctx.cpp:181-206).
* `finish c`: the function returns or throws; the copy that was called is destroyed at the end of the expression, or by the unwinding; then the state is set
  (co_ctx.cpp:65-79).
* `letGo c`: the handle is detached, or joined if the coroutine has ended: `unlock_destroy()`, and nothing else (source/cocpp/co/co.cpp:11-20, 41-61). -/
def step (n : Nat) (s : State) (a : Act) : Option (State × List Ev) :=
  match a with
  | .create c =>
    if c < n then
      match creation (s.pc c) with
      | some (k, true) => some ({ s with pc := upd s.pc c (s.pc c + 1), alive := set s.alive c k true }, [.made c k])
      | some (k, false) => some ({ s with pc := upd s.pc c (s.pc c + 1), alive := set s.alive c k false }, [.gone c k])
      | none =>
        if s.pc c = 7 then
          some ({ s with pc := upd s.pc c 8, co := upd s.co c .ready, locked := upd s.locked c true, asleep := false }, [])
        else none
    else none
  | .sched =>
    if s.asleep = false ∧ s.sweep = none then some ({ s with sweep := some (List.range n) }, []) else none
  | .look =>
    match s.sweep with
    | some (c :: l) =>
      if s.co c = .ended ∧ s.locked c = false ∧ s.cur ≠ some c then
        some ({ s with co := upd s.co c .freed, alive := set s.alive c .member false, sweep := some l }, [.gone c .member])
      else some ({ s with sweep := some l }, [])
    | _ => none
  | .switch c =>
    if s.sweep = some [] ∧ (s.co c).can = true then
      let co := match s.cur with
        | some d => upd s.co d (if s.co d = .running then .suspended else s.co d)
        | none => s.co
      if s.co c = .ready then
        some ({ s with co := upd co c .running, cur := some c, sweep := none, alive := set s.alive c .call true }, [.made c .call])
      else some ({ s with co := upd co c .running, cur := some c, sweep := none }, [])
    else none
  | .idle =>
    if s.sweep = some [] ∧ (List.range n).all (fun c => !(s.co c).can) = true then some ({ s with cur := none, sweep := none }, []) else none
  | .sleep =>
    if s.cur = none ∧ s.sweep = none ∧ (List.range n).all (fun c => !(s.co c).can) = true then some ({ s with asleep := true }, []) else none
  | .block c => if s.cur = some c ∧ s.co c = .running ∧ s.sweep = none then some ({ s with co := upd s.co c .blocked }, []) else none
  | .unblock c =>
    if s.co c = .blocked then some ({ s with co := upd s.co c (if s.cur = some c then .running else .suspended), asleep := false }, []) else none
  | .finish c =>
    if s.cur = some c ∧ s.co c = .running ∧ s.sweep = none then
      some ({ s with co := upd s.co c .ended, alive := set s.alive c .call false }, [.gone c .call]) else none
  | .letGo c => if s.pc c = 10 ∧ s.locked c = true then some ({ s with locked := upd s.locked c false }, []) else none

variable {n : Nat}

/-- The copies that exist, from how far the constructor is and where the coroutine is. (Concerns co_co.h:103-121, co_ctx_factory.cpp:15-45, co_ctx.cpp:52-83.) -/
structure Inv (n : Nat) (s : State) : Prop where
  loc : ∀ c, s.alive c .loc = true ↔ 1 ≤ s.pc c ∧ s.pc c ≤ 9
  param : ∀ c, s.alive c .param = true ↔ 2 ≤ s.pc c ∧ s.pc c ≤ 8
  fac : ∀ c, s.alive c .fac = true ↔ 3 ≤ s.pc c ∧ s.pc c ≤ 6
  ctor : ∀ c, s.alive c .ctor = true ↔ 4 ≤ s.pc c ∧ s.pc c ≤ 5
  member : ∀ c, s.alive c .member = true ↔ 5 ≤ s.pc c ∧ s.co c ≠ .freed
  call : ∀ c, s.alive c .call = true ↔ s.co c = .running ∨ s.co c = .suspended ∨ s.co c = .blocked
  off : ∀ c, s.co c = .off ↔ s.pc c ≤ 7
  low : ∀ c, s.pc c ≠ 0 → c < n
  curr : ∀ c, s.cur = some c → s.co c = .running ∨ s.co c = .blocked ∨ s.co c = .ended
  only : ∀ c, s.co c = .running → s.cur = some c
  held : ∀ c, s.co c = .freed → s.locked c = false
  still : s.asleep = true → s.cur = none ∧ s.sweep = none ∧ ∀ c, (s.co c).can = false

theorem inv_init : Inv n State.init := by
  constructor <;> simp [State.init, Co.can]

set_option maxHeartbeats 2000000 in
theorem inv_step (s : State) (a : Act) (s' : State) (es : List Ev) (hi : Inv n s) (h : step n s a = some (s', es)) : Inv n s' := by
  obtain ⟨h1, h2, h3, h4, h5, h6, h7, h8, h9, h10, h12, h11⟩ := hi
  unfold step at h
  cases a with
  | create c =>
    simp only at h
    split at h
    · rename_i hc
      have hp : s.pc c = 0 ∨ s.pc c = 1 ∨ s.pc c = 2 ∨ s.pc c = 3 ∨ s.pc c = 4 ∨ s.pc c = 5 ∨ s.pc c = 6 ∨ s.pc c = 7 ∨ s.pc c = 8 ∨ s.pc c = 9 ∨ 10 ≤ s.pc c := by omega
      rcases hp with hp | hp | hp | hp | hp | hp | hp | hp | hp | hp | hp
      case inr.inr.inr.inr.inr.inr.inr.inr.inr.inr =>
        have : creation (s.pc c) = none := by
          unfold creation; split <;> first | omega | rfl
        rw [this] at h
        simp only [Option.ite_none_right_eq_some] at h
        omega
      all_goals
        simp only [hp, creation, Option.ite_none_right_eq_some, Option.some.injEq, Prod.mk.injEq] at h
        first
        | obtain ⟨rfl, rfl⟩ := h
        | obtain ⟨_, rfl, rfl⟩ := h
        constructor <;> simp only [upd_apply, set] <;> grind [Co.can]
    · simp at h
  | look =>
    simp only at h
    split at h
    · split at h <;> (simp only [Option.some.injEq, Prod.mk.injEq] at h; obtain ⟨rfl, rfl⟩ := h; constructor <;> simp only [upd_apply, set] <;> grind [Co.can])
    · simp at h
  | switch c =>
    simp only at h
    split at h
    · rename_i hg
      split at h <;> (simp only [Option.some.injEq, Prod.mk.injEq] at h; obtain ⟨rfl, rfl⟩ := h
                      cases hcur : s.cur <;> constructor <;> simp only [upd_apply, set] <;> grind [Co.can])
    · simp at h
  | _ =>
    simp only [Option.ite_none_right_eq_some, Option.some.injEq, Prod.mk.injEq] at h
    obtain ⟨_, rfl, rfl⟩ := h
    constructor <;> simp only [upd_apply, set] <;> grind [Co.can]

theorem inv (as : List Act) (s : State) (es : List Ev) (h : runs (step n) State.init as = some (s, es)) : Inv n s :=
  runs_inv (Inv n) inv_step as _ s es inv_init h

/-! ## Each copy is made once and destroyed once -/

/-- What is allowed for each copy, independent of the model: it is made once (0 to 1), then destroyed once (1 to 2). (Concerns co_co.h:103-121, co_ctx_factory.cpp:15-45, co_ctx.cpp:52-83.) -/
def acc (q : Nat → Copy → Nat) : Ev → Option (Nat → Copy → Nat)
  | .made c k => if q c k = 0 then some (fun d l => if d = c ∧ l = k then 1 else q d l) else none
  | .gone c k => if q c k = 1 then some (fun d l => if d = c ∧ l = k then 2 else q d l) else none

/-- Where copy `k` is in its life, from the state (proof device). (Concerns co_co.h:103-121, co_ctx_factory.cpp:15-45, co_ctx.cpp:52-83.) -/
def stat (s : State) (c : Nat) : Copy → Nat
  | .loc => if s.pc c = 0 then 0 else if s.pc c ≤ 9 then 1 else 2
  | .param => if s.pc c ≤ 1 then 0 else if s.pc c ≤ 8 then 1 else 2
  | .fac => if s.pc c ≤ 2 then 0 else if s.pc c ≤ 6 then 1 else 2
  | .ctor => if s.pc c ≤ 3 then 0 else if s.pc c ≤ 5 then 1 else 2
  | .member => if s.pc c ≤ 4 then 0 else if s.co c = .freed then 2 else 1
  | .call => if s.co c = .off ∨ s.co c = .ready then 0 else if s.co c = .ended ∨ s.co c = .freed then 2 else 1

set_option maxHeartbeats 2000000 in
theorem stat_step (s : State) (a : Act) (s' : State) (es : List Ev) (hi : Inv n s) (h : step n s a = some (s', es)) :
    accepts acc (stat s) es = some (stat s') := by
  obtain ⟨h1, h2, h3, h4, h5, h6, h7, h8, h9, h10, h12, h11⟩ := hi
  unfold step at h
  cases a with
  | create c =>
    simp only at h
    split at h
    · rename_i hc
      have hp : s.pc c = 0 ∨ s.pc c = 1 ∨ s.pc c = 2 ∨ s.pc c = 3 ∨ s.pc c = 4 ∨ s.pc c = 5 ∨ s.pc c = 6 ∨ s.pc c = 7 ∨ s.pc c = 8 ∨ s.pc c = 9 ∨ 10 ≤ s.pc c := by omega
      rcases hp with hp | hp | hp | hp | hp | hp | hp | hp | hp | hp | hp
      case inr.inr.inr.inr.inr.inr.inr.inr.inr.inr =>
        have : creation (s.pc c) = none := by
          unfold creation; split <;> first | omega | rfl
        rw [this] at h
        simp only [Option.ite_none_right_eq_some] at h
        omega
      all_goals
        have h7c := h7 c
        simp only [hp, creation, Option.ite_none_right_eq_some, Option.some.injEq, Prod.mk.injEq] at h
        first
        | obtain ⟨rfl, rfl⟩ := h
        | obtain ⟨_, rfl, rfl⟩ := h
        simp only [accepts, acc, stat, hp]
        try (rw [if_pos (by grind)]; simp only [Option.bind_some])
        refine congrArg some (funext fun d => funext fun k => ?_)
        cases k <;> simp only [stat, upd_apply] <;> grind
    · simp at h
  | look =>
    simp only at h
    split at h
    · split at h
      · rename_i c l hl hg
        simp only [Option.some.injEq, Prod.mk.injEq] at h; obtain ⟨rfl, rfl⟩ := h
        have h7c := h7 c
        simp only [accepts, acc]
        rw [if_pos (by simp only [stat]; grind)]; simp only [Option.bind_some]
        refine congrArg some (funext fun d => funext fun k => ?_)
        cases k <;> simp only [stat, upd_apply] <;> grind
      · simp only [Option.some.injEq, Prod.mk.injEq] at h; obtain ⟨rfl, rfl⟩ := h
        rfl
    · simp at h
  | switch c =>
    simp only at h
    split at h
    · rename_i hg
      split at h
      · simp only [Option.some.injEq, Prod.mk.injEq] at h; obtain ⟨rfl, rfl⟩ := h
        simp only [accepts, acc]
        rw [if_pos (by simp only [stat]; grind)]; simp only [Option.bind_some]
        refine congrArg some (funext fun d => funext fun k => ?_)
        cases hcur : s.cur <;> cases k <;> simp only [stat, upd_apply] <;> grind
      · simp only [Option.some.injEq, Prod.mk.injEq] at h; obtain ⟨rfl, rfl⟩ := h
        refine congrArg some (funext fun d => funext fun k => ?_)
        cases hcur : s.cur <;> cases k <;> simp only [stat, upd_apply] <;> grind [Co.can]
    · simp at h
  | finish c =>
    simp only [Option.ite_none_right_eq_some, Option.some.injEq, Prod.mk.injEq] at h
    obtain ⟨_, rfl, rfl⟩ := h
    simp only [accepts, acc]
    rw [if_pos (by simp only [stat]; grind)]; simp only [Option.bind_some]
    refine congrArg some (funext fun d => funext fun k => ?_)
    cases k <;> simp only [stat, upd_apply] <;> grind
  | _ =>
    simp only [Option.ite_none_right_eq_some, Option.some.injEq, Prod.mk.injEq] at h
    obtain ⟨_, rfl, rfl⟩ := h
    refine congrArg some (funext fun d => funext fun k => ?_)
    cases k <;> simp only [stat, upd_apply] <;> grind

theorem stat_one {s : State} (hi : Inv n s) (c : Nat) (k : Copy) : stat s c k = 1 ↔ s.alive c k = true := by
  obtain ⟨h1, h2, h3, h4, h5, h6, h7, h8, h9, h10, h12, h11⟩ := hi
  have := h7 c
  cases k <;> simp only [stat]
  · have := h1 c; grind
  · have := h2 c; grind
  · have := h3 c; grind
  · have := h4 c; grind
  · have := h5 c; grind
  · have := h6 c; cases hx : s.co c <;> grind

/-- C122: in every execution every copy of what a coroutine was given is made at most once and destroyed at most once, never before it was made; those made and not destroyed are those that exist. -/
theorem C122_once (as : List Act) (s : State) (es : List Ev) (h : runs (step n) State.init as = some (s, es)) :
    ∃ q, accepts acc (fun _ _ => 0) es = some q ∧ ∀ c k, q c k = 1 ↔ s.alive c k = true := by
  have h0 : (fun _ _ => 0 : Nat → Copy → Nat) = stat State.init := by
    funext c k; cases k <;> simp [stat, State.init]
  obtain ⟨q, hq, hi, rfl⟩ := runs_sim (acc := acc) (fun s q => Inv n s ∧ q = stat s)
    (fun s a s' es q ⟨hi, hq⟩ h => ⟨stat s', by rw [hq]; exact stat_step s a s' es hi h, inv_step s a s' es hi h, rfl⟩)
    as _ s es (fun _ _ => 0) ⟨inv_init, h0⟩ h
  exact ⟨_, hq, stat_one hi⟩

/-- C122: a coroutine that has begun and not ended has the copy that was called, and the one in the coroutine itself: the function never uses what is already destroyed. -/
theorem C122_runs_on_own (as : List Act) (s : State) (es : List Ev) (c : Nat) (h : runs (step n) State.init as = some (s, es))
    (hc : s.co c = .running ∨ s.co c = .suspended ∨ s.co c = .blocked) : s.alive c .call = true ∧ s.alive c .member = true := by
  have hi := inv as s es h
  refine ⟨(hi.call c).2 hc, (hi.member c).2 ⟨?_, by grind⟩⟩
  have h1 := hi.off c
  have h2 : s.co c ≠ .off := by grind
  have h3 : ¬ s.pc c ≤ 7 := fun hx => h2 (h1.2 hx)
  omega

/-- C122: once the constructor of the handle is over, only the copy in the coroutine and the one that is called are left. -/
theorem C122_constructed (as : List Act) (s : State) (es : List Ev) (c : Nat) (k : Copy) (h : runs (step n) State.init as = some (s, es))
    (hp : s.pc c = 10) (hk : s.alive c k = true) : k = .member ∨ k = .call := by
  have hi := inv as s es h
  cases k
  · have := (hi.loc c).1 hk; omega
  · have := (hi.param c).1 hk; omega
  · have := (hi.fac c).1 hk; omega
  · have := (hi.ctor c).1 hk; omega
  · exact .inl rfl
  · exact .inr rfl

/-- C122: the copy that was called is gone when the coroutine has ended, before anybody can see that it has. -/
theorem C122_call_gone (as : List Act) (s : State) (es : List Ev) (c : Nat) (h : runs (step n) State.init as = some (s, es))
    (hc : s.co c = .ended) : s.alive c .call = false := by
  have hi := inv as s es h
  have := hi.call c
  grind

/-- C122: nothing is left of what a coroutine was given once the coroutine is destroyed and the constructor of its handle over. -/
theorem C122_freed_all (as : List Act) (s : State) (es : List Ev) (c : Nat) (k : Copy) (h : runs (step n) State.init as = some (s, es))
    (hp : s.pc c = 10) (hc : s.co c = .freed) : s.alive c k = false := by
  have hi := inv as s es h
  have h1 := hi.member c
  have h2 := hi.call c
  cases hk : s.alive c k
  · rfl
  · rcases C122_constructed as s es c k h hp hk with rfl | rfl <;> grind

/-- C122: neither the current coroutine, even if its function is over, nor one whose handle is neither joined nor detached loses the copy that is in the coroutine. -/
theorem C122_not_early (as : List Act) (s : State) (es : List Ev) (c : Nat) (h : runs (step n) State.init as = some (s, es))
    (hc : s.cur = some c ∨ s.locked c = true ∧ 8 ≤ s.pc c) : s.alive c .member = true := by
  have hi := inv as s es h
  have h1 := hi.off c
  have h2 := hi.curr c
  have h3 := hi.held c
  rw [hi.member c]
  grind

/-! ## When the copy in the coroutine goes -/

theorem swept_step (c : Nat) (s : State) (a : Act) (s' : State) (es : List Ev)
    (hi : Inv n s ∧ (s.co c = .freed ∨ ∃ l, s.sweep = some l ∧ c ∈ l ∧ s.co c = .ended ∧ s.locked c = false ∧ s.cur ≠ some c))
    (h : step n s a = some (s', es)) :
    Inv n s' ∧ (s'.co c = .freed ∨ ∃ l, s'.sweep = some l ∧ c ∈ l ∧ s'.co c = .ended ∧ s'.locked c = false ∧ s'.cur ≠ some c) := by
  refine ⟨inv_step s a s' es hi.1 h, ?_⟩
  obtain ⟨hi, hf⟩ := hi
  have h7 := hi.off
  unfold step at h
  cases a with
  | create d =>
    simp only at h
    split at h
    · split at h
      · simp only [Option.some.injEq, Prod.mk.injEq] at h; obtain ⟨rfl, rfl⟩ := h; exact hf
      · simp only [Option.some.injEq, Prod.mk.injEq] at h; obtain ⟨rfl, rfl⟩ := h; exact hf
      · simp only [Option.ite_none_right_eq_some, Option.some.injEq, Prod.mk.injEq] at h
        obtain ⟨hp, rfl, rfl⟩ := h
        have := (h7 d).2 (by omega)
        simp only [upd_apply]
        grind
    · simp at h
  | look =>
    simp only at h
    split at h
    · split at h <;> (simp only [Option.some.injEq, Prod.mk.injEq] at h; obtain ⟨rfl, rfl⟩ := h; simp only [upd_apply]; grind)
    · simp at h
  | switch d =>
    simp only at h
    split at h
    · rename_i hg
      split at h <;> (simp only [Option.some.injEq, Prod.mk.injEq] at h; obtain ⟨rfl, rfl⟩ := h
                      cases hcur : s.cur <;> simp only [upd_apply] <;> grind [Co.can])
    · simp at h
  | _ =>
    simp only [Option.ite_none_right_eq_some, Option.some.injEq, Prod.mk.injEq] at h
    obtain ⟨_, rfl, rfl⟩ := h
    simp only [upd_apply]
    grind

theorem pc_step (c : Nat) (t : State) (a : Act) (t' : State) (ee : List Ev) (ht : t.pc c = 10) (hst : step n t a = some (t', ee)) : t'.pc c = 10 := by
  unfold step at hst
  cases a with
  | create d =>
    simp only at hst
    split at hst
    · by_cases hd : c = d
      · subst hd
        simp [ht, creation] at hst
      · split at hst
        · simp only [Option.some.injEq, Prod.mk.injEq] at hst; obtain ⟨rfl, rfl⟩ := hst; simpa [upd_apply, hd] using ht
        · simp only [Option.some.injEq, Prod.mk.injEq] at hst; obtain ⟨rfl, rfl⟩ := hst; simpa [upd_apply, hd] using ht
        · simp only [Option.ite_none_right_eq_some, Option.some.injEq, Prod.mk.injEq] at hst
          obtain ⟨_, rfl, rfl⟩ := hst; simpa [upd_apply, hd] using ht
    · simp at hst
  | look =>
    simp only at hst
    split at hst
    · split at hst <;> (simp only [Option.some.injEq, Prod.mk.injEq] at hst; obtain ⟨rfl, rfl⟩ := hst; exact ht)
    · simp at hst
  | switch d =>
    simp only at hst
    split at hst
    · split at hst <;> (simp only [Option.some.injEq, Prod.mk.injEq] at hst; obtain ⟨rfl, rfl⟩ := hst; exact ht)
    · simp at hst
  | _ =>
    simp only [Option.ite_none_right_eq_some, Option.some.injEq, Prod.mk.injEq] at hst
    obtain ⟨_, rfl, rfl⟩ := hst
    exact ht

/-- C122, partial: if the env goes through a whole scheduling step, whatever else happens meanwhile, every coroutine that had ended before, was detached or joined, and was not the current one, has
nothing left of what it was given. Missing: that there is such a step (see `C122_kept`). -/
theorem C122_released_partial (as bs : List Act) (s s' : State) (es fs : List Ev) (c : Nat) (k : Copy)
    (h : runs (step n) State.init as = some (s, es)) (hc : s.co c = .ended) (hl : s.locked c = false) (hcur : s.cur ≠ some c) (hp : s.pc c = 10)
    (h' : runs (step n) s (.sched :: bs) = some (s', fs)) (hs : s'.sweep = none) : s'.alive c k = false := by
  obtain ⟨s1, e1, e2, h1, h2, rfl⟩ := runs_cons h'
  have hi := inv as s es h
  have hi1 := inv_step _ _ _ _ hi h1
  simp only [step, Option.ite_none_right_eq_some, Option.some.injEq, Prod.mk.injEq] at h1
  obtain ⟨hg, rfl, rfl⟩ := h1
  have hlow := hi.low c (by omega)
  obtain ⟨hi2, hf⟩ := runs_inv _ (swept_step c) bs _ s' e2 ⟨hi1, .inr ⟨_, rfl, by simpa using hlow, hc, hl, hcur⟩⟩ h2
  have hfr : s'.co c = .freed := by
    rcases hf with hf | ⟨l, hl, _⟩
    · exact hf
    · rw [hs] at hl; cases hl
  have hp' : s'.pc c = 10 := by
    exact runs_inv (fun t : State => t.pc c = 10) (pc_step c) bs _ s' e2 (by exact hp) h2
  have hm := hi2.member c
  have hcl := hi2.call c
  cases k
  · have := hi2.loc c; grind
  · have := hi2.param c; grind
  · have := hi2.fac c; grind
  · have := hi2.ctor c; grind
  · grind
  · grind

/-- C122, negation: while the env sleeps, what an ended coroutine was given stays, however long it is and whatever is detached or joined: only a new coroutine on the same env, or the waking of another
one, can change it. -/
theorem C122_kept (as bs : List Act) (s s' : State) (es fs : List Ev) (c : Nat) (h : runs (step n) State.init as = some (s, es)) (hs : s.asleep = true)
    (hm : s.alive c .member = true) (hb : ∀ a ∈ bs, ∀ d, a ≠ .create d ∧ a ≠ .unblock d) (h' : runs (step n) s bs = some (s', fs)) :
    s'.alive c .member = true ∧ s'.asleep = true := by
  have hi := inv as s es h
  clear h
  induction bs generalizing s fs with
  | nil =>
    simp only [runs, Option.some.injEq, Prod.mk.injEq] at h'
    obtain ⟨rfl, rfl⟩ := h'
    exact ⟨hm, hs⟩
  | cons a bs ih =>
    obtain ⟨s1, e1, e2, h1, h2, rfl⟩ := runs_cons h'
    have hi1 := inv_step _ _ _ _ hi h1
    obtain ⟨hc0, hs0, hcan⟩ := hi.still hs
    have key : s1.asleep = true ∧ s1.alive = s.alive := by
      have ha := hb a (by simp)
      unfold step at h1
      cases a with
      | create d => exact absurd rfl (ha d).1
      | unblock d => exact absurd rfl (ha d).2
      | look => simp [hs0] at h1
      | switch d => simp [hs0] at h1
      | _ =>
        simp only [Option.ite_none_right_eq_some, Option.some.injEq, Prod.mk.injEq] at h1
        obtain ⟨hg, rfl, rfl⟩ := h1
        simp_all
    exact ih s1 e2 key.1 (by rw [key.2]; exact hm) (fun x hx => hb x (by simp [hx])) h2 hi1

/-! ## Cases -/

/-- Make coroutine `c`. (Concerns co_co.h:103-121, co_ctx_factory.cpp:15-45, co_ctx.cpp:52-83.) -/
def mk (c : Nat) : List Act := List.replicate 10 (.create c)

/-- One coroutine is made, runs and ends; its handle is joined; the env sleeps: the copy in the coroutine is still there. (Concerns co_co.h:103-121, co_ctx_factory.cpp:15-45, co_ctx.cpp:52-83.) -/
def joined : List Act := mk 0 ++ [.sched, .look, .switch 0, .finish 0, .letGo 0, .sched, .look, .idle, .sleep]

example : (runs (step 1) State.init joined).map (fun p => (p.1.co 0, p.1.asleep, p.1.locked 0, p.1.pc 0, p.1.alive 0 .member, p.1.alive 0 .call)) =
    some (.ended, true, false, 10, true, false) := by decide

/-- The events of that execution. -/
example : (runs (step 1) State.init joined).map (fun p => p.2) =
    some [.made 0 .loc, .made 0 .param, .made 0 .fac, .made 0 .ctor, .made 0 .member, .gone 0 .ctor, .gone 0 .fac, .gone 0 .param, .gone 0 .loc,
      .made 0 .call, .gone 0 .call] := by decide

/-- A second coroutine on the same env releases it. -/
example : (runs (step 2) State.init (mk 0 ++ [.letGo 0, .sched, .look, .look, .switch 0, .finish 0, .sched, .look, .look, .idle, .sleep] ++ mk 1 ++
    [.sched, .look, .look, .switch 1])).map (fun p => (p.1.co 0, p.1.alive 0 .member, p.1.co 1)) = some (.freed, false, .running) := by decide

/-- The coroutine may run and be over before the constructor of its handle is: all is well with the copies, and the handle still keeps the coroutine. -/
example : (runs (step 1) State.init (List.replicate 8 (.create 0) ++ [.sched, .look, .switch 0, .finish 0, .sched, .look, .idle, .sleep])).map
    (fun p => (p.1.alive 0 .loc, p.1.alive 0 .param, p.1.alive 0 .member, p.1.alive 0 .call)) = some (true, true, true, false) := by decide

/-- Two coroutines: the one that blocks keeps what it runs on; the one that has ended and is detached loses it in the next scheduling step. -/
example : (runs (step 2) State.init (mk 0 ++ mk 1 ++ [.letGo 0, .sched, .look, .look, .switch 1, .block 1, .sched, .look, .look, .switch 0, .finish 0, .sched, .look, .look, .idle,
    .unblock 1, .sched, .look, .look, .switch 1])).map
    (fun p => (p.1.co 0, p.1.alive 0 .member, p.1.co 1, p.1.alive 1 .call)) = some (.freed, false, .running, true) := by decide

end Verif.Given
