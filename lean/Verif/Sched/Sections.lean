import Verif.Base.Lts

/-! # Thread locks and preemption (C94)

The library protects its own data by `std::recursive_mutex`es: the flags (co_flag_manager.h:15), the lists of an env
(co_env.h:78, 85), the events (co_event.h:21), the timers (co_timer.h:44, co_manager.h:47), the priorities (co_ctx.h:55). Such a
mutex belongs to a thread. Coroutines of one thread do not exclude each other, and a coroutine can be preempted in the middle of
such a section by the switch signal (co_vos_gcc_x86_64.cpp:142-165), unless the caller has disabled preemption
(`CoPreemptGuard`, `lock_schedule`; co_env.cpp:687-690).

One recursive mutex, the data it protects, any number of threads with any number of coroutines each. An update is
a read of the data and a write of the new value. Simplified: both are one access each; a compiler that makes one
instruction of both closes the window for that update. Coroutines stay in their thread (C56). -/

namespace Verif.Sections

section
variable {σ O : Type}

/-- Where a coroutine is in an update: not in one; waiting for the mutex; having it; having read the data; having written. `g`:
preemption is disabled by the caller. (co_flag_manager.h:18-27.) -/
inductive Pc (σ O : Type)
  | out
  | want (o : O) (g : Bool)
  | has (o : O) (g : Bool)
  | got (o : O) (v : σ) (g : Bool)
  | wrote (g : Bool)
deriving DecidableEq, Repr

/-- Between `lock()` and `unlock()`. (Concerns co_flag_manager.h:15-27.) -/
def Pc.inside : Pc σ O → Bool
  | .out | .want _ _ => false
  | _ => true
/-- In an update with preemption disabled (`can_force_schedule` is false, co_env.cpp:687-690; `switch_from_outside`
then returns, co_vos_gcc_x86_64.cpp:149-152). -/
def Pc.guarded : Pc σ O → Bool
  | .out => false
  | .want _ g | .has _ g | .got _ _ g | .wrote g => g

/-- `owner`, `depth`: the recursive mutex, held by a thread. `cur t`: the coroutine that thread `t` runs. (co_define.h:19-20, co_flag_manager.h:15.) -/
structure State (σ O : Type) where
  val : σ
  owner : Option Nat
  depth : Nat
  cur : Nat → Nat
  pc : Nat → Pc σ O

/-- Nobody is in an update; `cur` is what the threads run. (Concerns co_flag_manager.h:15-27.) -/
def State.init (v : σ) (cur : Nat → Nat) : State σ O := ⟨v, none, 0, cur, fun _ => .out⟩

/-- `upd c o`: coroutine `c` has written the result of `o`. `done c`: its call has returned. `torn t`: thread `t` has been taken from a
coroutine inside the section. (Concerns co_flag_manager.h:15-27.) -/
inductive Ev (O : Type)
  | upd (c : Nat) (o : O)
  | done (c : Nat)
  | torn (t : Nat)
deriving DecidableEq, Repr

/-- A coroutine begins an update, with preemption enabled or disabled; goes on; thread `t` switches to coroutine `c`. (Concerns co_flag_manager.h:15-27.) -/
inductive Act (O : Type)
  | call (c : Nat) (o : O) (g : Bool)
  | run (c : Nat)
  | switch (t c : Nat)
deriving DecidableEq, Repr

/-- One step. `home c`: the thread of coroutine `c`. `app o v`: the value the update `o` makes of `v`.
- `call`, `run`: only what the thread runs; `scoped_lock` (e.g. co_flag_manager.h:20), the update (21), the end of scope (22).
  `recursive_mutex::lock` succeeds if the mutex is free or the thread has it already.
- `switch`: `CoYield()` outside of updates, or the switch signal when preemption is not disabled. -/
def step (home : Nat → Nat) (app : O → σ → σ) (s : State σ O) : Act O → Option (State σ O × List (Ev O))
  | .call c o g =>
    if s.cur (home c) = c then
      match s.pc c with
      | .out => some ({ s with pc := upd s.pc c (.want o g) }, [])
      | _ => none
    else none
  | .run c =>
    if s.cur (home c) = c then
      match s.pc c with
      | .out => none
      | .want o g =>
        if s.owner = none ∨ s.owner = some (home c) then
          some ({ s with owner := some (home c), depth := s.depth + 1, pc := upd s.pc c (.has o g) }, [])
        else none
      | .has o g => some ({ s with pc := upd s.pc c (.got o s.val g) }, [])
      | .got o v g => some ({ s with val := app o v, pc := upd s.pc c (.wrote g) }, [.upd c o])
      | .wrote _ =>
        some ({ s with depth := s.depth - 1, owner := if s.depth = 1 then none else s.owner, pc := upd s.pc c .out }, [.done c])
    else none
  | .switch t c =>
    if home c = t ∧ (s.pc (s.cur t)).guarded = false then
      some ({ s with cur := upd s.cur t c }, if (s.pc (s.cur t)).inside ∧ c ≠ s.cur t then [.torn t] else [])
    else none

/-- The updates of a trace, in the order in which they happened. (Concerns co_flag_manager.h:15-27.) -/
def ops : List (Ev O) → List O
  | [] => []
  | .upd _ o :: es => o :: ops es
  | _ :: es => ops es

theorem ops_append (a b : List (Ev O)) : ops (a ++ b) = ops a ++ ops b := by
  induction a with
  | nil => rfl
  | cons e a ih => cases e <;> simp [ops, ih]

/-- Facts about every state reached without a torn section. (Concerns co_flag_manager.h:15-27.) -/
structure Inv (home : Nat → Nat) (app : O → σ → σ) (v0 : σ) (s : State σ O) (tr : List (Ev O)) : Prop where
  val : s.val = (ops tr).foldl (fun v o => app o v) v0
  got : ∀ c o v g, s.pc c = .got o v g → v = s.val
  ins : ∀ c, (s.pc c).inside = true → s.owner = some (home c) ∧ s.depth = 1 ∧ s.cur (home c) = c
  own : ∀ t, s.owner = some t → home (s.cur t) = t ∧ (s.pc (s.cur t)).inside = true
  free : s.owner = none → s.depth = 0

theorem inv_step {home : Nat → Nat} {app : O → σ → σ} {v0 : σ} {s s' : State σ O} {tr es : List (Ev O)} {a : Act O}
    (h : Inv home app v0 s tr) (hs : step home app s a = some (s', es)) (ht : ∀ t, Ev.torn t ∉ es) :
    Inv home app v0 s' (tr ++ es) := by
  obtain ⟨h1, h2, h3, h4, h5⟩ := h
  cases a with
  | call c o g =>
    simp only [step] at hs
    repeat' split at hs
    all_goals simp only [Option.some.injEq, Prod.mk.injEq, reduceCtorEq] at hs
    obtain ⟨rfl, rfl⟩ := hs
    constructor <;> grind [Pc.inside]
  | run c =>
    simp only [step] at hs
    repeat' split at hs
    all_goals simp only [Option.some.injEq, Prod.mk.injEq, reduceCtorEq] at hs
    all_goals obtain ⟨rfl, rfl⟩ := hs
    · constructor <;> grind [Pc.inside]
    · constructor <;> grind [Pc.inside]
    · rename_i hc _ o v g hp
      have hv := h2 c o v g hp
      refine ⟨by rw [ops_append, List.foldl_append, ← h1, ← hv]; rfl, ?_, ?_, ?_, h5⟩ <;> grind [Pc.inside]
    · refine ⟨by rw [ops_append, List.foldl_append, ← h1]; rfl, ?_, ?_, ?_, ?_⟩ <;> grind [Pc.inside]
    · rename_i hc _ g hp hn
      exact absurd (h3 c (by rw [hp]; rfl)).2.1 hn
  | switch t c =>
    simp only [step] at hs
    split at hs
    · rename_i hc
      simp only [Option.some.injEq, Prod.mk.injEq] at hs
      obtain ⟨rfl, rfl⟩ := hs
      split at ht
      · exact absurd (List.mem_singleton.mpr rfl) (ht t)
      · rename_i hn
        rw [if_neg hn, List.append_nil]
        refine ⟨h1, h2, ?_, ?_, h5⟩ <;> grind
    · simp at hs

theorem inv_runs {home : Nat → Nat} {app : O → σ → σ} {v0 : σ} {cur : Nat → Nat} {as : List (Act O)} {s : State σ O}
    {tr : List (Ev O)} (h : runs (step home app) (State.init v0 cur) as = some (s, tr)) (ht : ∀ t, Ev.torn t ∉ tr) :
    Inv home app v0 s tr := by
  have h0 : Inv home app v0 (State.init v0 cur) [] := by
    constructor <;> simp [State.init, ops, Pc.inside]
  have key : ∀ (as : List (Act O)) (s0 s : State σ O) (tr0 tr : List (Ev O)), Inv home app v0 s0 tr0 →
      runs (step home app) s0 as = some (s, tr) → (∀ t, Ev.torn t ∉ tr) → Inv home app v0 s (tr0 ++ tr) := by
    intro as
    induction as with
    | nil => intro s0 s tr0 tr h0 h _; cases h; simpa using h0
    | cons a as ih =>
      intro s0 s tr0 tr h0 h ht
      obtain ⟨s1, e1, e2, k1, k2, rfl⟩ := runs_cons h
      rw [← List.append_assoc]
      exact ih s1 s _ e2 (inv_step h0 k1 fun t hm => ht t (List.mem_append_left _ hm)) k2
        fun t hm => ht t (List.mem_append_right _ hm)
  simpa using key as _ s [] tr h0 h ht

/-- **C94 (partial).** As long as no coroutine is preempted inside the section, the data is the result of all the updates, one after
the other, whoever made them. What is missing: `C94_update_lost`. -/
theorem C94_atomic_partial {home : Nat → Nat} {app : O → σ → σ} {v0 : σ} {cur : Nat → Nat} {as : List (Act O)} {s : State σ O}
    {tr : List (Ev O)} (h : runs (step home app) (State.init v0 cur) as = some (s, tr)) (ht : ∀ t, Ev.torn t ∉ tr) :
    s.val = (ops tr).foldl (fun v o => app o v) v0 := (inv_runs h ht).val

/-- **C94, what the guard is good for.** If every update is made with preemption disabled, no section is torn. -/
theorem C94_guard_suffices {home : Nat → Nat} {app : O → σ → σ} {v0 : σ} {cur : Nat → Nat} {as : List (Act O)} {s : State σ O}
    {tr : List (Ev O)} (h : runs (step home app) (State.init v0 cur) as = some (s, tr))
    (hg : ∀ c o, Act.call c o false ∉ as) (t : Nat) : Ev.torn t ∉ tr := by
  have key : ∀ (as : List (Act O)) (s0 s : State σ O) (tr : List (Ev O)), (∀ c o, Act.call c o false ∉ as) →
      (∀ c, s0.pc c = .out ∨ (s0.pc c).guarded = true) →
      runs (step home app) s0 as = some (s, tr) → Ev.torn t ∉ tr := by
    intro as
    induction as with
    | nil => intro s0 s tr _ _ h; cases h; simp
    | cons a as ih =>
      intro s0 s tr hg hp h
      obtain ⟨s1, e1, e2, k1, k2, rfl⟩ := runs_cons h
      have hg' : ∀ c o, Act.call c o false ∉ as := fun c o hm => hg c o (List.mem_cons_of_mem _ hm)
      have hx : (∀ c, s1.pc c = .out ∨ (s1.pc c).guarded = true) ∧ Ev.torn t ∉ e1 := by
        cases a with
        | call c o g =>
          have : g = true := by
            cases g with
            | true => rfl
            | false => exact absurd List.mem_cons_self (hg c o)
          simp only [step] at k1
          repeat' split at k1
          all_goals simp only [Option.some.injEq, Prod.mk.injEq, reduceCtorEq] at k1
          obtain ⟨rfl, rfl⟩ := k1
          grind [Pc.guarded]
        | run c =>
          simp only [step] at k1
          repeat' split at k1
          all_goals simp only [Option.some.injEq, Prod.mk.injEq, reduceCtorEq] at k1
          all_goals obtain ⟨rfl, rfl⟩ := k1
          all_goals (have := hp c; grind [Pc.guarded])
        | switch t' c =>
          simp only [step] at k1
          split at k1
          · simp only [Option.some.injEq, Prod.mk.injEq] at k1
            obtain ⟨rfl, rfl⟩ := k1
            have := hp (s0.cur t')
            grind [Pc.inside]
          · simp at k1
      simp only [List.mem_append, not_or]
      exact ⟨hx.2, ih s1 s e2 hg' hx.1 k2⟩
  exact key as _ s tr hg (fun c => Or.inl rfl) h

/-- **C94 is false with preemption.** Whatever the data, whatever the two updates: when coroutine `c` is preempted in between its read
and its write, by a coroutine `d` of the same thread, the update of `d`, whether guarded or not, is lost. Both calls return. -/
theorem C94_update_lost (home : Nat → Nat) (app : O → σ → σ) (s : State σ O) {c d : Nat} (hcd : c ≠ d) (hh : home d = home c)
    (hcur : s.cur (home c) = c) (hc : s.pc c = .out) (hd : s.pc d = .out) (hf : s.owner = none) (h0 : s.depth = 0)
    (o p : O) (g : Bool) :
    ∃ s', runs (step home app) s ([.call c o false, .run c, .run c, .switch (home c) d, .call d p g, .run d, .run d, .run d, .run d,
        .switch (home c) c, .run c, .run c]) = some (s', [.torn (home c), .upd d p, .done d, .upd c o, .done c]) ∧
      s'.val = app o s.val ∧ s'.owner = none ∧ s'.pc c = .out ∧ s'.pc d = .out := by
  have hdc : d ≠ c := fun h => hcd h.symm
  refine ⟨⟨app o s.val, none, 0, upd (upd s.cur (home c) d) (home c) c,
    upd (upd (upd (upd (upd (upd (upd (upd (upd (upd s.pc c (.want o false)) c (.has o false)) c (.got o s.val false)) d (.want p g))
      d (.has p g)) d (.got p s.val g)) d (.wrote g)) d .out) c (.wrote false)) c .out⟩, ?_, rfl, rfl, ?_, ?_⟩
  · simp [runs, step, upd_apply, hcd, hdc, hh, hcur, hc, hd, hf, h0, Pc.guarded, Pc.inside]
  · simp [upd_apply]
  · simp [upd_apply, hdc]

end

/-! ## The flags of a coroutine -/

/-- `set_flag`, `unset_flag` (co_flag_manager.h:18-27). -/
inductive FlagOp
  | set (i : Nat)
  | unset (i : Nat)
deriving DecidableEq, Repr

/-- Which flag? (Concerns co_flag_manager.h:15-27.) -/
def FlagOp.flag : FlagOp → Nat
  | .set i | .unset i => i

/-- `flags__.set(flag)`, `flags__.reset(flag)` (co_flag_manager.h:21, 26). Simplified: flags are below `MAX_FLAG_COUNT`, all
callers use constants. -/
def FlagOp.app : FlagOp → (Nat → Bool) → (Nat → Bool)
  | .set i, v => upd v i true
  | .unset i, v => upd v i false

/-- What the last of these operations on flag `i` made of it; `b` if there is none. (Concerns co_flag_manager.h:15-27.) -/
def lastOf (i : Nat) : Bool → List FlagOp → Bool
  | b, [] => b
  | b, .set j :: l => lastOf i (if j = i then true else b) l
  | b, .unset j :: l => lastOf i (if j = i then false else b) l

theorem foldl_flag (i : Nat) (l : List FlagOp) (v : Nat → Bool) :
    (l.foldl (fun v o => o.app v) v) i = lastOf i (v i) l := by
  induction l generalizing v with
  | nil => rfl
  | cons o l ih =>
    rw [List.foldl_cons, ih]
    cases o <;> simp only [lastOf, FlagOp.app, upd_apply] <;> congr 1 <;> grind

/-- **C94, flags (partial).** Without a torn section a flag is what the last operation on that flag made of it: operations on other flags do
not matter. -/
theorem C94_flags_partial {home cur : Nat → Nat} {v0 : Nat → Bool} {as : List (Act FlagOp)} {s : State (Nat → Bool) FlagOp}
    {tr : List (Ev FlagOp)} (h : runs (step home FlagOp.app) (State.init v0 cur) as = some (s, tr)) (ht : ∀ t, Ev.torn t ∉ tr)
    (i : Nat) : s.val i = lastOf i (v0 i) (ops tr) := by
  rw [C94_atomic_partial h ht, foldl_flag]

/-- `CO_CTX_FLAG_WAITING` (co_define.h:19). -/
abbrev waiting : Nat := 0

/-- `CO_CTX_FLAG_LOCKED` (co_define.h:20). -/
abbrev locked : Nat := 1

/-- **C94, a lost wake-up.** A coroutine sleeps (its flag `waiting` is set) and has a handle. Coroutine 1 detaches the handle (`co::detach`,
which disables nothing, co.cpp:11-20) and is preempted; coroutine 2 wakes the sleeper (`leave_wait_resource_state`, inside the guard
of `co_mutex::unlock`, say). Then coroutine 1 goes on. The last operation on `waiting` was to clear it, but it is set: the sleeper is never scheduled again
(co_ctx.cpp:141-144, C45). -/
theorem C94_wakeup_lost :
    (runs (step (fun _ => 0) FlagOp.app) (State.init (fun i => i = waiting || i = locked) (fun _ => 1))
      [.call 1 (.unset locked) false, .run 1, .run 1, .switch 0 2, .call 2 (.unset waiting) true, .run 2, .run 2, .run 2, .run 2,
        .switch 0 1, .run 1, .run 1]).map (fun r => (r.2, r.1.val waiting, r.1.val locked, lastOf waiting true (ops r.2))) =
    some ([.torn 0, .upd 2 (.unset waiting), .done 2, .upd 1 (.unset locked), .done 1], true, false, false) := by rfl

/-- The same two calls in two threads: the second waits for the mutex, and both flags are clear in the end. -/
example : runs (step (fun c => c) FlagOp.app) (State.init (fun i => i = waiting || i = locked) (fun t => t))
      [.call 1 (.unset locked) false, .run 1, .run 1, .call 2 (.unset waiting) true, .run 2] = none ∧
    (runs (step (fun c => c) FlagOp.app) (State.init (fun i => i = waiting || i = locked) (fun t => t))
      [.call 1 (.unset locked) false, .run 1, .run 1, .call 2 (.unset waiting) true, .run 1, .run 1, .run 2, .run 2, .run 2,
        .run 2]).map (fun r => (r.2, r.1.val waiting, r.1.val locked)) =
      some ([.upd 1 (.unset locked), .done 1, .upd 2 (.unset waiting), .done 2], false, false) := ⟨by rfl, by rfl⟩

/-- With the guard the signal does nothing. -/
example : runs (step (fun _ => 0) FlagOp.app) (State.init (fun i => i = waiting || i = locked) (fun _ => 1))
    [.call 1 (.unset locked) true, .run 1, .run 1, .switch 0 2] = none := by rfl

/-- The same with the list of an env (co_env.cpp:87-91): coroutine 1 creates coroutine 7 and is preempted, coroutine 2 creates coroutine 8.
Coroutine 8 is in no list. Simplified: the pointers of a `std::list` taken as one value. -/
example : (runs (step (fun _ => 0) (fun (x : Nat) (l : List Nat) => l ++ [x])) (State.init [1, 2] (fun _ => 1))
      [.call 1 7 false, .run 1, .run 1, .switch 0 2, .call 2 8 false, .run 2, .run 2, .run 2, .run 2,
        .switch 0 1, .run 1, .run 1]).map (fun r => (r.2, r.1.val)) =
    some ([.torn 0, .upd 2 8, .done 2, .upd 1 7, .done 1], [1, 2, 7]) := by rfl

end Verif.Sections
