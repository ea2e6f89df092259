import Verif.Base.Lts

/-! # Durations of timed waits (C95)

`co::wait_for`, `co::wait_until` (co_co.h:156-167, co_env.cpp:99-152) and `this_co::sleep_for` (co_co.h:169-173): how the duration
the caller gives becomes the expiry time of a timer. Durations and clock readings are 64 bit signed counts; that an
operation on them overflows is undefined behaviour and a distinct outcome here. (Elsewhere in this development times do not overflow.)
`sleep_for` is also how `co_condition_variable::wait_for` (co_condition_variable.h:119-123, 159-164), `try_lock_for`
(co_timed_addition.h:21-26) and `try_acquire_for` (co_counting_semaphore.h:85-90) compute their deadline.

Simplified: integral counts only (no `duration<double>`). A timer wakes its waiter at any time from its expiry time on, but
not before; that is C65. The clock does not go back. -/

namespace Verif.Duration

/-- 2^63. (Concerns co_co.h:156-189, co_env.cpp:99-152.) -/
def lim : Int := 9223372036854775808

/-- The result of a signed 64 bit operation; `none` is overflow, undefined behaviour. (Concerns co_co.h:156-189, co_env.cpp:99-152.) -/
def chk (x : Int) : Option Int := if -lim ≤ x ∧ x < lim then some x else none

/-- Conversion of a duration of `n` ticks of `u` nanoseconds each to nanoseconds (co_co.h:159, and implicitly in
`steady_clock::now() + …`). -/
def toNs (n u : Int) : Option Int := chk (n * u)

/-- `long` to `unsigned long long`: the parameter `interval_ms` (co_timer.h:53, from co_env.cpp:118-120). -/
def toU (x : Int) : Int := x % (2 * lim)

/-- `unsigned long long` to `long`: `chrono::milliseconds(interval__)` (co_timer.cpp:91). -/
def ofU (x : Int) : Int := if x < lim then x else x - 2 * lim

/-- `steady_clock::now() + d` of `sleep_for` (co_co.h:172). -/
def sleepExpiry (now n u : Int) : Option Int := (toNs n u).bind fun d => chk (now + d)

/-- The expiry time of the timer of `wait_ctx`: `duration_cast<milliseconds>`, which rounds towards zero (co_env.cpp:118-120), and
`now + milliseconds(interval__)` (co_timer.cpp:87-93). -/
def waitExpiry (now d : Int) : Option Int := (toNs (ofU (toU (d.tdiv 1000000))) 1000000).bind fun e => chk (now + e)

/-- The calls. `u`: nanoseconds per tick. (Concerns co_co.h:156-189, co_env.cpp:99-152.) -/
inductive Op
  | sleepFor (n u : Int)
  | waitFor (x : Nat) (n u : Int)
  | waitUntil (x : Nat) (tp : Int)
deriving DecidableEq, Repr

/-- What they return. (Concerns co_co.h:156-189, co_env.cpp:99-152.) -/
inductive Res
  | slept
  | got
  | timeout
deriving DecidableEq, Repr

/-- Where a coroutine is. (co_co.h:156-189, co_env.cpp:99-152.) -/
inductive Pc
  | idle
  | called (o : Op)
  /-- in `wait_ctx` with a time-out of `d` nanoseconds -/
  | dur (x : Nat) (d : Int)
  /-- asleep; `x`: the coroutine waited for, `e`: when the timer expires -/
  | asleep (x : Option Nat) (e : Int)
  | woken (x : Option Nat)
  | ub
deriving DecidableEq, Repr

/-- The clock, where the coroutines are, and which coroutines have finished. (co_co.h:156-189, co_env.cpp:99-152.) -/
structure State where
  now : Int
  pc : Nat → Pc
  fin : Nat → Bool

/-- At the start. (Concerns co_co.h:156-189, co_env.cpp:99-152.) -/
def State.init (t0 : Int) : State := ⟨t0, fun _ => .idle, fun _ => false⟩

/-- Choices of the environment. (Concerns co_co.h:156-189, co_env.cpp:99-152.) -/
inductive Act
  | tick (d : Nat)
  | call (c : Nat) (o : Op)
  /-- `c` runs -/
  | run (c : Nat)
  /-- the timer of `c` fires -/
  | fire (c : Nat)
  /-- coroutine `x` finishes -/
  | finish (x : Nat)
  /-- `c`, subscribed to the end of a finished coroutine, is woken -/
  | notify (c : Nat)
deriving DecidableEq, Repr

/-- Events, with the time they happen. (Concerns co_co.h:156-189, co_env.cpp:99-152.) -/
inductive Ev
  | call (c : Nat) (o : Op) (t : Int)
  | ret (c : Nat) (r : Res) (t : Int)
  | finish (x : Nat) (t : Int)
  | ub (c : Nat)
deriving DecidableEq, Repr

/-- One step. (Concerns co_co.h:156-189, co_env.cpp:99-152.) -/
def step (s : State) : Act → Option (State × List Ev)
  | .tick d => some ({ s with now := s.now + d }, [])
  | .call c o => if s.pc c = .idle then some ({ s with pc := upd s.pc c (.called o) }, [.call c o s.now]) else none
  | .run c =>
    match s.pc c with
    -- co_co.h:172, 180
    | .called (.sleepFor n u) =>
      match sleepExpiry s.now n u with
      | some e => some ({ s with pc := upd s.pc c (.asleep none e) }, [])
      | none => some ({ s with pc := upd s.pc c .ub }, [.ub c])
    -- co_co.h:159
    | .called (.waitFor x n u) =>
      match toNs n u with
      | some d => some ({ s with pc := upd s.pc c (.dur x d) }, [])
      | none => some ({ s with pc := upd s.pc c .ub }, [.ub c])
    -- co_co.h:165
    | .called (.waitUntil x tp) =>
      match chk (tp - s.now) with
      | some d => some ({ s with pc := upd s.pc c (.dur x d) }, [])
      | none => some ({ s with pc := upd s.pc c .ub }, [.ub c])
    -- co_env.cpp:116-131
    | .dur x d =>
      if s.fin x then some ({ s with pc := upd s.pc c (.woken (some x)) }, []) else
        match waitExpiry s.now d with
        | some e => some ({ s with pc := upd s.pc c (.asleep (some x) e) }, [])
        | none => some ({ s with pc := upd s.pc c .ub }, [.ub c])
    -- co_co.h:188
    | .woken none => some ({ s with pc := upd s.pc c .idle }, [.ret c .slept s.now])
    -- co_env.cpp:143-151
    | .woken (some x) => some ({ s with pc := upd s.pc c .idle }, [.ret c (if s.fin x then .got else .timeout) s.now])
    | _ => none
  | .fire c =>
    match s.pc c with
    | .asleep x e => if e ≤ s.now then some ({ s with pc := upd s.pc c (.woken x) }, []) else none
    | _ => none
  | .finish x => if s.fin x then none else some ({ s with fin := upd s.fin x true }, [.finish x s.now])
  | .notify c =>
    match s.pc c with
    | .asleep (some x) _ => if s.fin x then some ({ s with pc := upd s.pc c (.woken (some x)) }, []) else none
    | _ => none

/-! ## What the user sees -/

/-- The latest call of `c`, and when it was made. (Concerns co_co.h:156-189, co_env.cpp:99-152.) -/
def lastCall (c : Nat) : List Ev → Option (Op × Int)
  | [] => none
  | e :: es =>
    match lastCall c es with
    | some r => some r
    | none => match e with | .call c' o t => if c' = c then some (o, t) else none | _ => none

theorem lastCall_append (c : Nat) (a b : List Ev) : lastCall c (a ++ b) = (lastCall c b).or (lastCall c a) := by
  induction a with
  | nil => simp [lastCall]
  | cons e a ih =>
    simp only [List.cons_append, lastCall, ih]
    cases lastCall c b <;> cases lastCall c a <;> simp

/-- Has coroutine `x` finished? (Concerns co_co.h:156-189, co_env.cpp:99-152.) -/
def finished (x : Nat) (tr : List Ev) : Prop := ∃ t, Ev.finish x t ∈ tr

/-! ## Arithmetic -/

theorem chk_some {x y : Int} (h : chk x = some y) : y = x ∧ -lim ≤ x ∧ x < lim := by
  unfold chk at h; split at h
  · rename_i hc; simp at h; exact ⟨h.symm, hc⟩
  · simp at h

theorem wrap_id {x : Int} (h1 : -lim ≤ x) (h2 : x < lim) : ofU (toU x) = x := by
  unfold ofU toU lim at *; split <;> omega

theorem tdiv_bounds (d : Int) : (0 ≤ d → d.tdiv 1000000 * 1000000 ≤ d ∧ d < d.tdiv 1000000 * 1000000 + 1000000) ∧
    (d ≤ 0 → d ≤ d.tdiv 1000000 * 1000000 ∧ d.tdiv 1000000 * 1000000 - 1000000 < d ∧ d.tdiv 1000000 * 1000000 ≤ 0) := by
  have hm := Int.mul_tdiv_add_tmod d 1000000
  constructor
  · intro h
    have h1 := Int.tmod_nonneg 1000000 h
    have h2 := Int.tmod_lt_of_pos d (show (0 : Int) < 1000000 by decide)
    omega
  · intro h
    have h3 : (-d).tdiv 1000000 = -(d.tdiv 1000000) := by simp [Int.neg_tdiv]
    have h4 : (-d).tmod 1000000 = -(d.tmod 1000000) := by simp [Int.neg_tmod]
    have h1 := Int.tmod_nonneg 1000000 (show 0 ≤ -d by omega)
    have h2 := Int.tmod_lt_of_pos (-d) (show (0 : Int) < 1000000 by decide)
    have h5 : 0 ≤ (-d).tdiv 1000000 := Int.tdiv_nonneg (by omega) (by decide)
    omega

/-- The timer of a wait of `d` ns expires after `d` cut to whole milliseconds. -/
theorem waitExpiry_eq {now d : Int} (h1 : -lim ≤ d) (h2 : d < lim) : waitExpiry now d = chk (now + d.tdiv 1000000 * 1000000) := by
  have hb := tdiv_bounds d
  unfold waitExpiry
  rw [wrap_id (by unfold lim at *; omega) (by unfold lim at *; omega)]
  have : toNs (d.tdiv 1000000) 1000000 = some (d.tdiv 1000000 * 1000000) := by
    unfold toNs chk; rw [if_pos]; unfold lim at *; omega
  rw [this]; rfl

/-! ## Invariant -/

/-- How long the caller is willing to wait, in ns, for a call made at `t`. (Concerns co_co.h:156-189, co_env.cpp:99-152.) -/
def Op.length (t : Int) : Op → Int
  | .sleepFor n u => n * u
  | .waitFor _ n u => n * u
  | .waitUntil _ tp => tp - t

/-- What the call waits for. (Concerns co_co.h:156-189, co_env.cpp:99-152.) -/
def Op.target : Op → Option Nat
  | .sleepFor _ _ => none
  | .waitFor x _ _ => some x
  | .waitUntil x _ => some x

/-- Proof device: `l` ns cut to whole milliseconds if it is a wait. (Concerns co_co.h:156-189, co_env.cpp:99-152.) -/
def cut : Op → Int → Int
  | .sleepFor _ _, l => l
  | _, l => l.tdiv 1000000 * 1000000

/-- Proof device: what is known while coroutine `c` is in a call. (Concerns co_co.h:156-189, co_env.cpp:99-152.) -/
def Known (s : State) (tr : List Ev) (c : Nat) : Prop :=
  match s.pc c with
  | .idle | .ub => True
  | .called o => ∃ t, lastCall c tr = some (o, t) ∧ t ≤ s.now
  | .dur x d => -lim ≤ d ∧ d < lim ∧ ∃ o t t', lastCall c tr = some (o, t) ∧ o.target = some x ∧ t ≤ t' ∧ t' ≤ s.now ∧ d = o.length t'
  | .asleep x e => ∃ o t t', lastCall c tr = some (o, t) ∧ o.target = x ∧ t ≤ t' ∧ t' ≤ s.now ∧ t' + cut o (o.length t') ≤ e
  | .woken x => ∃ o t t', lastCall c tr = some (o, t) ∧ o.target = x ∧ t ≤ t' ∧
      (t' + cut o (o.length t') ≤ s.now ∨ ∃ y, x = some y ∧ s.fin y = true)

/-- Proof device: the invariant. (Concerns co_co.h:156-189, co_env.cpp:99-152.) -/
def Inv (s : State) (tr : List Ev) : Prop := (∀ c, Known s tr c) ∧ ∀ x, s.fin x = true ↔ finished x tr

theorem inv_init (t0 : Int) : Inv (State.init t0) [] := by
  refine ⟨fun c => trivial, fun x => ?_⟩
  simp [State.init, finished]

theorem lastCall_call {c : Nat} {tr : List Ev} {o : Op} {t : Int} : lastCall c (tr ++ [.call c o t]) = some (o, t) := by
  simp [lastCall_append, lastCall]

theorem lastCall_keep {c : Nat} {tr es : List Ev} (h : ∀ o t, Ev.call c o t ∉ es) : lastCall c (tr ++ es) = lastCall c tr := by
  have : lastCall c es = none := by
    induction es with
    | nil => rfl
    | cons e es ih =>
      simp only [lastCall]
      rw [ih fun o t hm => h o t (List.mem_cons_of_mem _ hm)]
      cases e with
      | call c' o t =>
        have : c' ≠ c := by rintro rfl; exact h o t List.mem_cons_self
        simp [this]
      | _ => rfl
  simp [lastCall_append, this]

/-- What is known of a coroutine stays known while others go on, time passes and coroutines finish. -/
theorem known_mono {s s' : State} {tr es : List Ev} {c : Nat} (h : Known s tr c) (hp : s'.pc c = s.pc c) (hn : s.now ≤ s'.now)
    (hf : ∀ x, s.fin x = true → s'.fin x = true) (he : ∀ o t, Ev.call c o t ∉ es) : Known s' (tr ++ es) c := by
  unfold Known at *
  rw [hp, lastCall_keep he]
  cases hq : s.pc c with
  | idle => trivial
  | ub => trivial
  | called o =>
    simp only [hq] at h ⊢
    obtain ⟨t, h1, h2⟩ := h
    exact ⟨t, h1, by omega⟩
  | dur x d =>
    simp only [hq] at h ⊢
    obtain ⟨h1, h2, o, t, t', h3, h4, h5, h6, h7⟩ := h
    exact ⟨h1, h2, o, t, t', h3, h4, h5, by omega, h7⟩
  | asleep x e =>
    simp only [hq] at h ⊢
    obtain ⟨o, t, t', h3, h4, h5, h6, h7⟩ := h
    exact ⟨o, t, t', h3, h4, h5, by omega, h7⟩
  | woken x =>
    simp only [hq] at h ⊢
    obtain ⟨o, t, t', h3, h4, h5, h6⟩ := h
    refine ⟨o, t, t', h3, h4, h5, ?_⟩
    rcases h6 with h6 | ⟨y, h6, h7⟩
    · exact .inl (by omega)
    · exact .inr ⟨y, h6, hf y h7⟩

/-- A step of one coroutine. -/
theorem inv_one {s : State} {tr es : List Ev} {c : Nat} {p : Pc} (hI : Inv s tr) (he : ∀ d o t, d ≠ c → Ev.call d o t ∉ es)
    (hf : ∀ x t, Ev.finish x t ∉ es) (hk : Known { s with pc := upd s.pc c p } (tr ++ es) c) :
    Inv { s with pc := upd s.pc c p } (tr ++ es) := by
  refine ⟨fun d => ?_, fun x => ?_⟩
  · by_cases hd : d = c
    · subst hd; exact hk
    · exact known_mono (hI.1 d) (upd_other _ _ hd) (Int.le_refl _) (fun _ h => h) (fun o t => he d o t hd)
  · rw [hI.2 x]; unfold finished
    constructor
    · rintro ⟨t, h⟩; exact ⟨t, List.mem_append_left _ h⟩
    · rintro ⟨t, h⟩
      rcases List.mem_append.1 h with h | h
      · exact ⟨t, h⟩
      · exact absurd h (hf x t)

theorem inv_step {s s' : State} {tr es : List Ev} {a : Act} (hI : Inv s tr) (hs : step s a = some (s', es)) : Inv s' (tr ++ es) := by
  cases a with
  | tick d =>
    simp only [step, Option.some.injEq, Prod.mk.injEq] at hs
    obtain ⟨rfl, rfl⟩ := hs
    refine ⟨fun c => known_mono (hI.1 c) rfl (by simp only; omega) (fun _ h => h) (by simp), ?_⟩
    simpa using hI.2
  | call c o =>
    simp only [step] at hs
    split at hs
    · simp only [Option.some.injEq, Prod.mk.injEq] at hs
      obtain ⟨rfl, rfl⟩ := hs
      refine inv_one hI (by simp; grind) (by simp) ?_
      simp only [Known, upd_same, lastCall_call]
      exact ⟨s.now, rfl, Int.le_refl _⟩
    · simp at hs
  | run c =>
    have hk := hI.1 c
    unfold Known at hk
    simp only [step] at hs
    cases hq : s.pc c with
    | idle => simp [hq] at hs
    | ub => simp [hq] at hs
    | asleep x e => simp [hq] at hs
    | called o =>
      simp only [hq] at hk hs
      obtain ⟨t, hk1, hk2⟩ := hk
      cases o with
      | sleepFor n u =>
        simp only at hs
        split at hs
        · rename_i e he
          simp only [Option.some.injEq, Prod.mk.injEq] at hs
          obtain ⟨rfl, rfl⟩ := hs
          refine inv_one hI (by simp) (by simp) ?_
          simp only [Known, upd_same, List.append_nil]
          refine ⟨_, t, s.now, hk1, rfl, hk2, Int.le_refl _, ?_⟩
          simp only [sleepExpiry, Option.bind_eq_some_iff] at he
          obtain ⟨d, hd, he⟩ := he
          have := chk_some hd; have := chk_some he
          simp only [cut, Op.length]; omega
        · simp only [Option.some.injEq, Prod.mk.injEq] at hs
          obtain ⟨rfl, rfl⟩ := hs
          exact inv_one hI (by simp) (by simp) (by simp [Known])
      | waitFor x n u =>
        simp only at hs
        split at hs
        · rename_i e he
          simp only [Option.some.injEq, Prod.mk.injEq] at hs
          obtain ⟨rfl, rfl⟩ := hs
          refine inv_one hI (by simp) (by simp) ?_
          simp only [Known, upd_same, List.append_nil]
          have := chk_some he
          exact ⟨by omega, by omega, _, t, s.now, hk1, rfl, hk2, Int.le_refl _, this.1⟩
        · simp only [Option.some.injEq, Prod.mk.injEq] at hs
          obtain ⟨rfl, rfl⟩ := hs
          exact inv_one hI (by simp) (by simp) (by simp [Known])
      | waitUntil x tp =>
        simp only at hs
        split at hs
        · rename_i e he
          simp only [Option.some.injEq, Prod.mk.injEq] at hs
          obtain ⟨rfl, rfl⟩ := hs
          refine inv_one hI (by simp) (by simp) ?_
          simp only [Known, upd_same, List.append_nil]
          have := chk_some he
          exact ⟨by omega, by omega, _, t, s.now, hk1, rfl, hk2, Int.le_refl _, this.1⟩
        · simp only [Option.some.injEq, Prod.mk.injEq] at hs
          obtain ⟨rfl, rfl⟩ := hs
          exact inv_one hI (by simp) (by simp) (by simp [Known])
    | dur x d =>
      simp only [hq] at hk hs
      obtain ⟨h1, h2, o, t, t', h3, h4, h5, h6, h7⟩ := hk
      split at hs
      · rename_i hfin
        simp only [Option.some.injEq, Prod.mk.injEq] at hs
        obtain ⟨rfl, rfl⟩ := hs
        refine inv_one hI (by simp) (by simp) ?_
        simp only [Known, upd_same, List.append_nil]
        exact ⟨o, t, t', h3, h4, h5, .inr ⟨x, rfl, hfin⟩⟩
      · split at hs
        · rename_i e he
          simp only [Option.some.injEq, Prod.mk.injEq] at hs
          obtain ⟨rfl, rfl⟩ := hs
          refine inv_one hI (by simp) (by simp) ?_
          simp only [Known, upd_same, List.append_nil]
          refine ⟨o, t, t', h3, h4, h5, h6, ?_⟩
          rw [waitExpiry_eq h1 h2] at he
          have := chk_some he
          cases o with
          | sleepFor n u => simp [Op.target] at h4
          | _ => simp only [cut]; subst h7; omega
        · simp only [Option.some.injEq, Prod.mk.injEq] at hs
          obtain ⟨rfl, rfl⟩ := hs
          exact inv_one hI (by simp) (by simp) (by simp [Known])
    | woken x =>
      cases x with
      | none =>
        simp only [hq, Option.some.injEq, Prod.mk.injEq] at hs
        obtain ⟨rfl, rfl⟩ := hs
        exact inv_one hI (by simp) (by simp) (by simp [Known])
      | some x =>
        simp only [hq, Option.some.injEq, Prod.mk.injEq] at hs
        obtain ⟨rfl, rfl⟩ := hs
        exact inv_one hI (by simp) (by simp) (by simp [Known])
  | fire c =>
    have hk := hI.1 c
    unfold Known at hk
    simp only [step] at hs
    split at hs
    · rename_i x e hq
      simp only [hq] at hk
      obtain ⟨o, t, t', h3, h4, h5, h6, h7⟩ := hk
      split at hs
      · simp only [Option.some.injEq, Prod.mk.injEq] at hs
        obtain ⟨rfl, rfl⟩ := hs
        refine inv_one hI (by simp) (by simp) ?_
        simp only [Known, upd_same, List.append_nil]
        exact ⟨o, t, t', h3, h4, h5, .inl (by omega)⟩
      · simp at hs
    · simp at hs
  | finish x =>
    simp only [step] at hs
    split at hs
    · simp at hs
    · simp only [Option.some.injEq, Prod.mk.injEq] at hs
      obtain ⟨rfl, rfl⟩ := hs
      refine ⟨fun c => known_mono (hI.1 c) rfl (Int.le_refl _) (fun y h => ?_) (by simp), fun y => ?_⟩
      · simp only [upd_apply]; split <;> simp_all
      · have := hI.2 y
        simp only [upd_apply, finished, List.mem_append, List.mem_singleton, Ev.finish.injEq] at this ⊢
        split
        · rename_i hy; subst hy; simp only [true_iff]; exact ⟨s.now, .inr (by simp)⟩
        · rename_i hy; rw [this]; simp [hy]
  | notify c =>
    have hk := hI.1 c
    unfold Known at hk
    simp only [step] at hs
    split at hs
    · rename_i x e hq
      simp only [hq] at hk
      obtain ⟨o, t, t', h3, h4, h5, h6, h7⟩ := hk
      split at hs
      · rename_i hfin
        simp only [Option.some.injEq, Prod.mk.injEq] at hs
        obtain ⟨rfl, rfl⟩ := hs
        refine inv_one hI (by simp) (by simp) ?_
        simp only [Known, upd_same, List.append_nil]
        exact ⟨o, t, t', h3, h4, h5, .inr ⟨x, rfl, hfin⟩⟩
      · simp at hs
    · simp at hs

theorem inv_runs {t0 : Int} {as : List Act} {s : State} {tr : List Ev} (h : runs step (State.init t0) as = some (s, tr)) : Inv s tr := by
  have := runs_hist (step := step) Inv (fun _ _ _ _ _ hI hs => inv_step hI hs) as (State.init t0) s tr [] (inv_init t0) h
  simpa using this

/-- Returning is the last step of a woken coroutine. -/
theorem ret_step {s s' : State} {a : Act} {p q : List Ev} {c : Nat} {r : Res} {t : Int}
    (hs : step s a = some (s', p ++ .ret c r t :: q)) :
    p = [] ∧ t = s.now ∧ ∃ x, s.pc c = .woken x ∧ r = match x with | none => .slept | some y => if s.fin y then .got else .timeout := by
  have key : ∀ {e : Ev}, [e] = p ++ .ret c r t :: q → p = [] ∧ e = .ret c r t := by
    intro e h
    cases p with
    | nil => simp at h; exact ⟨rfl, h.1⟩
    | cons => simp at h
  cases a <;> simp only [step] at hs <;> repeat' split at hs
  all_goals simp only [Option.some.injEq, Prod.mk.injEq, reduceCtorEq, List.nil_eq, List.append_eq_nil_iff, List.cons_ne_nil, and_false] at hs
  all_goals obtain ⟨hp, he⟩ := key hs.2
  all_goals simp at he
  all_goals (obtain ⟨rfl, rfl, rfl⟩ := he; refine ⟨hp, rfl, _, by assumption, ?_⟩; simp_all)

/-! ## C95 -/

/-- **C95, sleeping.** `sleep_for` returns no earlier than the full duration after the call. -/
theorem C95_sleep {t0 : Int} {as : List Act} {s : State} {pre post : List Ev} {c : Nat} {t : Int}
    (h : runs step (State.init t0) as = some (s, pre ++ .ret c .slept t :: post)) :
    ∃ n u t1, lastCall c pre = some (.sleepFor n u, t1) ∧ t1 + n * u ≤ t := by
  obtain ⟨as1, a, as2, s1, s2, p1, p2, q1, q2, rfl, h1, h2, h3, rfl, rfl⟩ := runs_split as _ s pre _ post h
  obtain ⟨rfl, rfl, x, hx, hr⟩ := ret_step h2
  have hk := (inv_runs h1).1 c
  unfold Known at hk
  simp only [hx] at hk
  obtain ⟨o, t, t', h4, h5, h6, h7⟩ := hk
  rw [List.append_nil]
  cases x with
  | some y => simp at hr; split at hr <;> simp at hr
  | none =>
    cases o with
    | sleepFor n u =>
      refine ⟨n, u, t, h4, ?_⟩
      rcases h7 with h7 | ⟨y, h7, _⟩
      · simp only [cut, Op.length] at h7; omega
      · simp at h7
    | _ => simp [Op.target] at h5

/-- **C95, waiting (partial).** `wait_for` and `wait_until` give up only while the coroutine has not finished, and less than a millisecond
early; not early at all if the duration is a whole number of milliseconds. What is missing: `C95_wait_early`, `C95_forever`. -/
theorem C95_wait_partial {t0 : Int} {as : List Act} {s : State} {pre post : List Ev} {c : Nat} {t : Int}
    (h : runs step (State.init t0) as = some (s, pre ++ .ret c .timeout t :: post)) :
    ∃ x t1, ¬ finished x pre ∧
      ((∃ n u, lastCall c pre = some (.waitFor x n u, t1) ∧ t1 + n * u - 1000000 < t ∧ (1000000 ∣ n * u → t1 + n * u ≤ t)) ∨
        ∃ tp, lastCall c pre = some (.waitUntil x tp, t1) ∧ tp - 1000000 < t) := by
  obtain ⟨as1, a, as2, s1, s2, p1, p2, q1, q2, rfl, h1, h2, h3, rfl, rfl⟩ := runs_split as _ s pre _ post h
  obtain ⟨rfl, rfl, x, hx, hr⟩ := ret_step h2
  have hk := (inv_runs h1).1 c
  unfold Known at hk
  simp only [hx] at hk
  obtain ⟨o, t, t', h4, h5, h6, h7⟩ := hk
  rw [List.append_nil]
  cases x with
  | none => simp at hr
  | some y =>
    have hf : s1.fin y = false := by
      simp only at hr
      by_cases hf : s1.fin y = true
      · simp only [hf, if_true, reduceCtorEq] at hr
      · simpa using hf
    refine ⟨y, t, fun hfin => Bool.false_ne_true (hf.symm.trans (((inv_runs h1).2 y).2 hfin)), ?_⟩
    rcases h7 with h7 | ⟨z, h7, h8⟩
    · cases o with
      | sleepFor n u => simp [Op.target] at h5
      | waitFor x n u =>
        simp only [Op.target, Option.some.injEq] at h5
        subst h5
        simp only [cut, Op.length] at h7
        have hb := tdiv_bounds (n * u)
        refine .inl ⟨n, u, h4, by omega, fun hd => ?_⟩
        have : (n * u).tdiv 1000000 * 1000000 = n * u := Int.tdiv_mul_cancel hd
        omega
      | waitUntil x tp =>
        simp only [Op.target, Option.some.injEq] at h5
        subst h5
        simp only [cut, Op.length] at h7
        have hb := tdiv_bounds (tp - t')
        exact .inr ⟨tp, h4, by omega⟩
    · simp only [Option.some.injEq] at h7
      subst h7; rw [h8] at hf; cases hf

/-- **C95, a result.** The waits return a result only if the coroutine has finished. -/
theorem C95_got {t0 : Int} {as : List Act} {s : State} {pre post : List Ev} {c : Nat} {t : Int}
    (h : runs step (State.init t0) as = some (s, pre ++ .ret c .got t :: post)) :
    ∃ o x t1, lastCall c pre = some (o, t1) ∧ o.target = some x ∧ finished x pre := by
  obtain ⟨as1, a, as2, s1, s2, p1, p2, q1, q2, rfl, h1, h2, h3, rfl, rfl⟩ := runs_split as _ s pre _ post h
  obtain ⟨rfl, rfl, x, hx, hr⟩ := ret_step h2
  have hk := (inv_runs h1).1 c
  unfold Known at hk
  simp only [hx] at hk
  obtain ⟨o, t, t', h4, h5, h6, h7⟩ := hk
  rw [List.append_nil]
  cases x with
  | none => simp at hr
  | some y =>
    have hf : s1.fin y = true := by
      simp only at hr
      by_cases hf : s1.fin y = true
      · exact hf
      · simp only [hf, if_false, Bool.false_eq_true, reduceCtorEq] at hr
    exact ⟨o, y, t, h4, h5, ((inv_runs h1).2 y).1 hf⟩

/-- **C95, early.** Whenever the duration is not a whole number of milliseconds, `wait_for` can give up before it is over: it waits
only for the whole milliseconds in it (for less than a millisecond: not at all). -/
theorem C95_wait_early (s : State) (c x : Nat) (n u : Int) (hi : s.pc c = .idle) (hx : s.fin x = false) (h0 : 0 ≤ n * u)
    (hn : ¬ 1000000 ∣ n * u) (hb : n * u < lim) (h1 : 0 ≤ s.now) (h2 : s.now + n * u < lim) :
    ∃ d : Nat, (runs step s [.call c (.waitFor x n u), .run c, .run c, .tick d, .fire c, .run c]).map (·.2) =
        some [.call c (.waitFor x n u) s.now, .ret c .timeout (s.now + d)] ∧
      s.now + (d : Int) < s.now + n * u := by
  have hbd := (tdiv_bounds (n * u)).1 h0
  have hne : (n * u).tdiv 1000000 * 1000000 ≠ n * u := fun h => hn ⟨(n * u).tdiv 1000000, by rw [Int.mul_comm 1000000]; exact h.symm⟩
  have h3 : 0 ≤ (n * u).tdiv 1000000 := Int.tdiv_nonneg h0 (by decide)
  have hd : (((n * u).tdiv 1000000 * 1000000).toNat : Int) = (n * u).tdiv 1000000 * 1000000 := Int.toNat_of_nonneg (by omega)
  have hns : toNs n u = some (n * u) := by unfold toNs chk; rw [if_pos]; unfold lim at *; omega
  have hexp : waitExpiry s.now (n * u) = some (s.now + (n * u).tdiv 1000000 * 1000000) := by
    rw [waitExpiry_eq (by unfold lim at *; omega) hb]; unfold chk; rw [if_pos]; unfold lim at *; omega
  refine ⟨((n * u).tdiv 1000000 * 1000000).toNat, ?_, by omega⟩
  simp [runs, step, hi, hns, hexp, hx, hd, upd_same]

/-- **C95, "for ever".** Waiting for the longest duration (`nanoseconds::max()`), once the clock shows a millisecond, is
undefined behaviour whenever the coroutine has not finished; so is sleeping for it. -/
theorem C95_forever (s : State) (c x : Nat) (hi : s.pc c = .idle) (hx : s.fin x = false) (h1 : 1000000 ≤ s.now) :
    (runs step s [.call c (.waitFor x (lim - 1) 1), .run c, .run c]).map (·.2) =
        some [.call c (.waitFor x (lim - 1) 1) s.now, .ub c] ∧
      (runs step s [.call c (.sleepFor (lim - 1) 1), .run c]).map (·.2) = some [.call c (.sleepFor (lim - 1) 1) s.now, .ub c] := by
  have h2 : waitExpiry s.now (lim - 1) = none := by
    rw [waitExpiry_eq (by decide) (by decide)]
    unfold chk; rw [if_neg]
    have : (lim - 1).tdiv 1000000 * 1000000 = 9223372036854000000 := by decide
    rw [this]; unfold lim; omega
  have h3 : toNs (lim - 1) 1 = some (lim - 1) := by decide
  have h4 : sleepExpiry s.now (lim - 1) 1 = none := by
    unfold sleepExpiry; rw [h3]
    simp only [Option.bind_some, chk]
    rw [if_neg]; unfold lim; omega
  constructor
  · simp [runs, step, hi, h3, h2, hx, upd_same]
  · simp [runs, step, hi, h4, upd_same]

/-- Proof device: nothing in progress can overflow. (Concerns co_co.h:156-189, co_env.cpp:99-152.) -/
def Small (s : State) : Prop :=
  0 ≤ s.now ∧ ∀ c, match s.pc c with
    | .called o => -(lim / 2) ≤ o.length 0 ∧ o.length 0 ≤ lim / 2
    | .dur _ d => -lim < d ∧ d ≤ lim / 2
    | _ => True

theorem small_upd {s : State} {c : Nat} {p : Pc} (h : Small s) (hp : match p with
    | .called o => -(lim / 2) ≤ o.length 0 ∧ o.length 0 ≤ lim / 2
    | .dur _ d => -lim < d ∧ d ≤ lim / 2
    | _ => True) : Small { s with pc := upd s.pc c p } := by
  refine ⟨h.1, fun d => ?_⟩
  by_cases hd : d = c
  · subst hd; simp only [upd_same]; exact hp
  · simp only [upd_other _ _ hd]; exact h.2 d

theorem chk_of {x : Int} (h1 : -lim ≤ x) (h2 : x < lim) : chk x = some x := if_pos ⟨h1, h2⟩

theorem small_step {s s' : State} {a : Act} {es : List Ev} (hI : Small s) (hn : s.now < lim / 2) (hs : step s a = some (s', es))
    (hc : ∀ c o t, Ev.call c o t ∈ es → -(lim / 2) ≤ o.length 0 ∧ o.length 0 ≤ lim / 2) :
    Small s' ∧ (∀ c, Ev.ub c ∉ es) := by
  have hl : lim = 2 * (lim / 2) := by decide
  have hl2 : 2 ≤ lim / 2 := by decide
  cases a with
  | tick d =>
    simp only [step, Option.some.injEq, Prod.mk.injEq] at hs
    obtain ⟨rfl, rfl⟩ := hs
    exact ⟨⟨by have := hI.1; simp only; omega, hI.2⟩, by simp⟩
  | call c o =>
    simp only [step] at hs
    split at hs
    · simp only [Option.some.injEq, Prod.mk.injEq] at hs
      obtain ⟨rfl, rfl⟩ := hs
      exact ⟨small_upd hI (hc c o s.now (by simp)), by simp⟩
    · simp at hs
  | run c =>
    have hk := hI.2 c
    have h0 := hI.1
    simp only [step] at hs
    cases hq : s.pc c with
    | idle => simp [hq] at hs
    | ub => simp [hq] at hs
    | asleep x e => simp [hq] at hs
    | woken x =>
      cases x <;> simp only [hq, Option.some.injEq, Prod.mk.injEq] at hs <;> obtain ⟨rfl, rfl⟩ := hs <;>
        exact ⟨small_upd hI trivial, by simp⟩
    | called o =>
      simp only [hq] at hk hs
      cases o with
      | sleepFor n u =>
        simp only [Op.length] at hk
        have : sleepExpiry s.now n u = some (s.now + n * u) := by
          unfold sleepExpiry toNs
          rw [chk_of (by omega) (by omega)]
          exact chk_of (by omega) (by omega)
        simp only [this, Option.some.injEq, Prod.mk.injEq] at hs
        obtain ⟨rfl, rfl⟩ := hs
        exact ⟨small_upd hI trivial, by simp⟩
      | waitFor x n u =>
        simp only [Op.length] at hk
        have : toNs n u = some (n * u) := chk_of (by omega) (by omega)
        simp only [this, Option.some.injEq, Prod.mk.injEq] at hs
        obtain ⟨rfl, rfl⟩ := hs
        exact ⟨small_upd hI ⟨by omega, by omega⟩, by simp⟩
      | waitUntil x tp =>
        simp only [Op.length] at hk
        have : chk (tp - s.now) = some (tp - s.now) := chk_of (by omega) (by omega)
        simp only [this, Option.some.injEq, Prod.mk.injEq] at hs
        obtain ⟨rfl, rfl⟩ := hs
        exact ⟨small_upd hI ⟨by omega, by omega⟩, by simp⟩
    | dur x d =>
      simp only [hq] at hk hs
      have hb := tdiv_bounds d
      have : waitExpiry s.now d = some (s.now + d.tdiv 1000000 * 1000000) := by
        rw [waitExpiry_eq (by omega) (by omega)]
        exact chk_of (by omega) (by omega)
      simp only [this] at hs
      split at hs <;> simp only [Option.some.injEq, Prod.mk.injEq] at hs <;> obtain ⟨rfl, rfl⟩ := hs <;>
        exact ⟨small_upd hI trivial, by simp⟩
  | fire c =>
    simp only [step] at hs
    repeat' split at hs
    all_goals simp only [Option.some.injEq, Prod.mk.injEq, reduceCtorEq] at hs
    obtain ⟨rfl, rfl⟩ := hs
    exact ⟨small_upd hI trivial, by simp⟩
  | finish x =>
    simp only [step] at hs
    split at hs
    · simp at hs
    · simp only [Option.some.injEq, Prod.mk.injEq] at hs
      obtain ⟨rfl, rfl⟩ := hs
      exact ⟨hI, by simp⟩
  | notify c =>
    simp only [step] at hs
    repeat' split at hs
    all_goals simp only [Option.some.injEq, Prod.mk.injEq, reduceCtorEq] at hs
    obtain ⟨rfl, rfl⟩ := hs
    exact ⟨small_upd hI trivial, by simp⟩

/-- The clock does not go back. -/
theorem now_step {s s' : State} {a : Act} {es : List Ev} (hs : step s a = some (s', es)) : s.now ≤ s'.now := by
  cases a <;> simp only [step] at hs <;> repeat' split at hs
  all_goals simp only [Option.some.injEq, Prod.mk.injEq, reduceCtorEq] at hs
  all_goals obtain ⟨rfl, rfl⟩ := hs
  all_goals simp only; omega

theorem now_runs {as : List Act} {s s' : State} {tr : List Ev} (h : runs step s as = some (s', tr)) : s.now ≤ s'.now := by
  induction as generalizing s tr with
  | nil => cases h; exact Int.le_refl _
  | cons a as ih =>
    obtain ⟨s1, e1, e2, h1, h2, rfl⟩ := runs_cons h
    have := now_step h1; have := ih h2; omega

/-- **C95, no overflow.** With less than 146 years on the clock at the end and all durations given as at most 146 years (dates: from
minus 146 to 146 years), nothing overflows. -/
theorem C95_no_overflow {t0 : Int} {as : List Act} {s : State} {tr : List Ev} (h : runs step (State.init t0) as = some (s, tr))
    (h0 : 0 ≤ t0) (h1 : s.now < lim / 2) (h2 : ∀ c o t, Ev.call c o t ∈ tr → -(lim / 2) ≤ o.length 0 ∧ o.length 0 ≤ lim / 2) (c : Nat) :
    Ev.ub c ∉ tr := by
  have key : ∀ (as : List Act) (s0 s : State) (tr : List Ev), Small s0 → runs step s0 as = some (s, tr) → s.now < lim / 2 →
      (∀ c o t, Ev.call c o t ∈ tr → -(lim / 2) ≤ o.length 0 ∧ o.length 0 ≤ lim / 2) → Ev.ub c ∉ tr := by
    intro as
    induction as with
    | nil => intro s0 s tr _ h _ _; cases h; simp
    | cons a as ih =>
      intro s0 s tr hI h hn hc
      obtain ⟨s1, e1, e2, k1, k2, rfl⟩ := runs_cons h
      have hm := now_runs k2
      have hm1 := now_step k1
      obtain ⟨h1, h2⟩ := small_step hI (by omega) k1 fun c o t hm => hc c o t (List.mem_append_left _ hm)
      simp only [List.mem_append, not_or]
      exact ⟨h2 c, ih s1 s e2 h1 k2 hn fun c o t hm => hc c o t (List.mem_append_right _ hm)⟩
  exact key as _ s tr ⟨h0, fun _ => trivial⟩ h h1 h2

/-- A wait of 1.5 ms gives up after 1 ms, a sleep of 1.5 ms lasts; a wait of 2 ms lasts; a wait for a finishing coroutine gets its result. -/
example : (runs step (State.init 5) [.call 1 (.waitFor 9 1500 1000), .call 2 (.sleepFor 1500 1000), .call 3 (.waitFor 9 2 1000000),
      .call 4 (.waitUntil 9 2000005), .run 1, .run 2, .run 3, .run 4, .run 1, .run 3, .run 4, .tick 1000000, .fire 1, .run 1, .tick 500000,
      .fire 2, .run 2, .tick 500000, .fire 3, .run 3, .finish 9, .fire 4, .run 4]).map (·.2) =
    some [.call 1 (.waitFor 9 1500 1000) 5, .call 2 (.sleepFor 1500 1000) 5, .call 3 (.waitFor 9 2 1000000) 5,
      .call 4 (.waitUntil 9 2000005) 5, .ret 1 .timeout 1000005, .ret 2 .slept 1500005, .ret 3 .timeout 2000005, .finish 9 2000005,
      .ret 4 .got 2000005] := by rfl

/-- A wait of less than a millisecond does not wait; one for `hours::max()` is undefined behaviour whatever the clock says. -/
example : (runs step (State.init 5) [.call 1 (.waitFor 9 999 1000), .run 1, .run 1, .fire 1, .run 1,
      .call 2 (.waitFor 9 2562047788015215 3600000000000), .run 2]).map (·.2) =
    some [.call 1 (.waitFor 9 999 1000) 5, .ret 1 .timeout 5, .call 2 (.waitFor 9 2562047788015215 3600000000000) 5, .ub 2] := by rfl

end Verif.Duration
