import Verif.Timer.Timer

/-!
# C110: the creation of a coroutine fails without consequences

`co::co` → `create_and_schedule_ctx` (co_manager.cpp:421-440) allocates a `co_ctx`, the memory and the object of its stack, entries of the event
`priority_changed` and of a list, and possibly an env with its thread. Each of these calls may fail with an exception: `bad_alloc`,
"mmap mem failed", `system_error` of `std::async`, "env state error". This file follows all of them, whichever call fails.
-/

namespace Verif.Create
open Verif

/-- A `co_ctx`: the object, its `co_stack` and the memory of that (`none`: shared stack; memory `none`: stack size 0). (Concerns co_manager.cpp:73-440, co_env.cpp:32-443.) -/
structure Ctx where
  obj : Nat
  stk : Option Nat
  mem : Option Nat
deriving DecidableEq, Repr

/-- What a `co_ctx` consists of; `destroy_ctx` (co_ctx_factory.cpp:34-45) frees it. -/
def Ctx.res (c : Ctx) : List Nat := c.obj :: c.stk.toList ++ c.mem.toList

/-- An env: object, thread (`worker__`, absent for the env of a plain thread), idle coroutine, shared stack, coroutines in its lists; `shut`:
its state is `created` or `destroying`. (Concerns co_manager.cpp:73-440, co_env.cpp:32-443.) -/
structure Env where
  obj : Nat
  thr : Option Nat
  idle : Ctx
  shared : Option (Nat × Option Nat)
  shut : Bool
  ctxs : List Ctx
deriving DecidableEq, Repr

/-- The shared stack: object and memory. (Concerns co_manager.cpp:73-440, co_env.cpp:32-443.) -/
def sharedRes : Option (Nat × Option Nat) → List Nat
  | none => []
  | some (k, m) => k :: m.toList

/-- What belongs to an env; the clean-up thread and the env free it (co_env_factory.cpp:28-40, co_env.cpp:429-443). -/
def Env.res (e : Env) : List Nat :=
  e.obj :: e.thr.toList ++ e.idle.res ++ sharedRes e.shared ++ e.ctxs.flatMap Ctx.res

/-- `live`: everything allocated and not freed; `next`: names for new things; `envs`: `normal_set`; `calls`: number of calls so far that may fail. (co_manager.cpp:413-440.) -/
structure State where
  next : Nat
  live : List Nat
  envs : List Env
  calls : Nat
deriving DecidableEq, Repr

/-- Everything that some env has, so that it will be freed. (Concerns co_manager.cpp:73-440, co_env.cpp:32-443.) -/
def State.owned (s : State) : List Nat := s.envs.flatMap Env.res

/-- What is allocated and belongs to nobody. (Concerns co_manager.cpp:73-440, co_env.cpp:32-443.) -/
def State.leaked (s : State) : List Nat := s.live.filter fun n => n ∉ s.owned

/-- How a call ends: it returns, it throws, or its behaviour is undefined. (Concerns co_manager.cpp:73-440, co_env.cpp:32-443.) -/
inductive Out (α : Type)
  | ok (a : α)
  | exn
  | ub
deriving DecidableEq, Repr

/-- A piece of code. (Concerns co_manager.cpp:73-440, co_env.cpp:32-443.) -/
def M (α : Type) := State → Out α × State

/-- `return`. (Concerns co_manager.cpp:73-440, co_env.cpp:32-443.) -/
def ret (a : α) : M α := fun s => (.ok a, s)

/-- One after the other; an exception ends both. (Concerns co_manager.cpp:73-440, co_env.cpp:32-443.) -/
def andThen (m : M α) (f : α → M β) : M β := fun s =>
  match m s with
  | (.ok a, s') => f a s'
  | (.exn, s') => (.exn, s')
  | (.ub, s') => (.ub, s')

/-- C++ code in sequence. (Concerns co_manager.cpp:73-440, co_env.cpp:32-443.) -/
instance : Monad M where
  pure := ret
  bind := andThen

/-- `throw`. (Concerns co_manager.cpp:73-440, co_env.cpp:32-443.) -/
def throw_ : M α := fun s => (.exn, s)

/-- A new-expression whose initialisation throws frees the memory of the object ([expr.new]; since C++17 it is allocated before the arguments are
evaluated). (Concerns co_manager.cpp:73-440, co_env.cpp:32-443.) -/
def orFree (n : Nat) (m : M α) : M α := fun s =>
  match m s with
  | (.exn, s') => (.exn, { s' with live := s'.live.filter (· ≠ n) })
  | r => r

/-- A call that may throw. `fails k`: the `k`-th such call throws. (Concerns co_manager.cpp:73-440, co_env.cpp:32-443.) -/
def call (fails : Nat → Bool) : M Unit := fun s =>
  (if fails s.calls then .exn else .ok (), { s with calls := s.calls + 1 })

/-- A call that allocates. (Concerns co_manager.cpp:73-440, co_env.cpp:32-443.) -/
def alloc (fails : Nat → Bool) : M Nat := fun s =>
  if fails s.calls then (.exn, { s with calls := s.calls + 1 })
  else (.ok s.next, { s with calls := s.calls + 1, next := s.next + 1, live := s.next :: s.live })

variable (fails : Nat → Bool)

/-- `create_stack` (co_stack_factory.cpp:11-33): memory unless the size is 0, then the object. The test for `nullptr` in line 27 is never true: `new` throws. -/
def createStack (size : Nat) : M (Nat × Option Nat) := do
  let m ← if size = 0 then pure none else some <$> alloc fails
  let k ← alloc fails
  pure (k, m)

/-- `create_ctx` (co_ctx_factory.cpp:15-32), constructor (co_ctx.cpp:52-58): it copies `config` and `entry`, which may throw. -/
def createCtx (size : Option Nat) : M Ctx := do
  let o ← alloc fails
  orFree o do
    let st ← match size with
      | none => pure none
      | some n => some <$> createStack fails n
    call fails
    pure ⟨o, st.map (·.1), st.bind (·.2)⟩

/-- Add an env to `normal_set`. (Concerns co_manager.cpp:73-440, co_env.cpp:32-443.) -/
def addEnv (e : Env) : M Nat := fun s => (.ok s.envs.length, { s with envs := s.envs ++ [e] })

/-- `create_env` (co_manager.cpp:87-104, co_env_factory.cpp:14-26, 56-65): the idle coroutine with a stack of size 0, the env, whose constructor starts a thread
(co_env.cpp:32-51, 359-365), the subscription (co_manager.cpp:73-78), the entry in `normal_set`. -/
def createEnv : M Nat := do
  let i ← createCtx fails (some 0)
  let e ← alloc fails
  let t ← orFree e (alloc fails)
  call fails
  call fails
  addEnv ⟨e, some t, i, none, false, []⟩

/-- The env at a place in the list. (Concerns co_manager.cpp:73-440, co_env.cpp:32-443.) -/
def getEnv (e : Nat) : M Env := fun s =>
  match s.envs[e]? with
  | some x => (.ok x, s)
  | none => (.ub, s)

/-- Change an env. (Concerns co_manager.cpp:73-440, co_env.cpp:32-443.) -/
def putEnv (e : Nat) (x : Env) : M Unit := fun s => (.ok (), { s with envs := s.envs.set e x })

/-- The shared stack at its first use (co_env.cpp:66-73, 53-56; `sz`: its size). An exception leaves the `once_flag` unset. -/
def share (sz e : Nat) (x : Env) (c : Ctx) : M Unit :=
  if c.stk = none ∧ x.shared = none then do
    let st ← createStack fails sz
    putEnv e { x with shared := some st }
  else pure ()

/-- `add_ctx` (co_env.cpp:58-78) and `move_ctx_to_here` (80-99): the check of the state, the shared stack, the entry in the list. -/
def addCtx (sz e : Nat) (c : Ctx) : M Unit := do
  let x ← getEnv e
  if x.shut then throw_ else do
  share fails sz e x c
  let x ← getEnv e
  call fails
  putEnv e { x with ctxs := x.ctxs ++ [c] }

/-- `create_and_schedule_ctx` (co_manager.cpp:421-440). `to`: the env that is bound or that `get_best_env__` found (C59 is about which), `none` if it creates one. -/
def create (sz : Nat) (size : Option Nat) (to : Option Nat) : M Ctx := do
  let c ← createCtx fails size
  call fails
  let e ← match to with
    | some e => pure e
    | none => createEnv fails
  addCtx fails sz e c
  pure c

/-! ## What each function leaves behind -/

/-- From `s` to `s'` exactly `new` was allocated (and not freed). (Concerns co_manager.cpp:73-440, co_env.cpp:32-443.) -/
structure Ext (s s' : State) (new : List Nat) : Prop where
  live : ∀ n, n ∈ s'.live ↔ n ∈ new ∨ n ∈ s.live
  fresh : ∀ n ∈ new, s.next ≤ n ∧ n < s'.next
  next : s.next ≤ s'.next

theorem Ext.refl (s : State) (k : Nat) : Ext s { s with calls := k } [] := ⟨by simp, by simp, Nat.le_refl _⟩

theorem Ext.trans {s s1 s2 : State} {a b : List Nat} (h1 : Ext s s1 a) (h2 : Ext s1 s2 b) : Ext s s2 (b ++ a) := by
  refine ⟨fun n => ?_, fun n hn => ?_, Nat.le_trans h1.next h2.next⟩
  · rw [h2.live, h1.live, List.mem_append]; grind
  · have := h1.next; have := h2.next
    rcases List.mem_append.1 hn with hn | hn
    · have := h2.fresh n hn; omega
    · have := h1.fresh n hn; omega

/-- All failing calls and no others end with an exception. (Concerns co_manager.cpp:73-440, co_env.cpp:32-443.) -/
structure Ran (fails : Nat → Bool) (s s' : State) (r : Out α) : Prop where
  ub : r ≠ .ub
  some : s.calls < s'.calls
  early : ∀ k, s.calls ≤ k → k + 1 < s'.calls → fails k = false
  last : ∃ k, s'.calls = k + 1 ∧ (fails k = true ↔ r = .exn)

theorem createStack_spec {fails : Nat → Bool} {size : Nat} {s s' : State} {r : Out (Nat × Option Nat)} (h : createStack fails size s = (r, s')) :
    s'.envs = s.envs ∧ Ran fails s s' r ∧ s'.calls ≤ s.calls + 2 ∧
      match r with
      | .ok (k, m) => Ext s s' (k :: m.toList)
      | .exn => ∃ new, Ext s s' new ∧ (new = [] ↔ s'.calls = s.calls + 1)
      | .ub => False := by
  by_cases hz : size = 0
  · by_cases f0 : fails s.calls
    · simp [createStack, hz, bind, andThen, pure, ret, alloc, f0] at h
      obtain ⟨rfl, rfl⟩ := h
      refine ⟨rfl, ⟨by simp, by simp, fun k a b => by simp at b; omega, s.calls, rfl, by simp [f0]⟩, by simp, [], Ext.refl _ _, by simp⟩
    · simp [createStack, hz, bind, andThen, pure, ret, alloc, f0] at h
      obtain ⟨rfl, rfl⟩ := h
      refine ⟨rfl, ⟨by simp, by simp, fun k a b => by simp at b; omega, s.calls, rfl, by simp [f0]⟩, by simp, ⟨by simp, by simp, by simp⟩⟩
  · by_cases f0 : fails s.calls
    · simp [createStack, hz, bind, andThen, pure, alloc, f0, Functor.map] at h
      obtain ⟨rfl, rfl⟩ := h
      refine ⟨rfl, ⟨by simp, by simp, fun k a b => by simp at b; omega, s.calls, rfl, by simp [f0]⟩, by simp, [], Ext.refl _ _, by simp⟩
    · by_cases f1 : fails (s.calls + 1)
      · simp [createStack, hz, bind, andThen, pure, ret, alloc, f0, f1, Functor.map] at h
        obtain ⟨rfl, rfl⟩ := h
        refine ⟨rfl, ⟨by simp, by simp; omega, fun k a b => ?_, s.calls + 1, rfl, by simp [f1]⟩, by simp, [s.next], ⟨by simp, by simp, by simp⟩, by simp⟩
        simp at b
        obtain rfl : k = s.calls := by omega
        simpa using f0
      · simp [createStack, hz, bind, andThen, pure, ret, alloc, f0, f1, Functor.map] at h
        obtain ⟨rfl, rfl⟩ := h
        refine ⟨rfl, ⟨by simp, by simp; omega, fun k a b => ?_, s.calls + 1, rfl, by simp [f1]⟩, by simp, ⟨by simp [or_assoc], by simp; omega, by simp; omega⟩⟩
        simp at b
        obtain rfl : k = s.calls := by omega
        simpa using f0

theorem andThen_cases {m : M α} {f : α → M β} {s s' : State} {r : Out β} (h : (m >>= f) s = (r, s')) :
    (∃ a s1, m s = (.ok a, s1) ∧ f a s1 = (r, s')) ∨ (m s = (.exn, s') ∧ r = .exn) ∨ (m s = (.ub, s') ∧ r = .ub) := by
  simp only [bind, andThen] at h
  split at h
  · rename_i a s1 hm; exact .inl ⟨a, s1, hm, h⟩
  · rename_i s1 hm; cases h; exact .inr (.inl ⟨hm, rfl⟩)
  · rename_i s1 hm; cases h; exact .inr (.inr ⟨hm, rfl⟩)

theorem Ran.trans {fails : Nat → Bool} {s s1 s2 : State} {a : α} {r : Out β} (h1 : Ran fails s s1 (Out.ok a)) (h2 : Ran fails s1 s2 r) :
    Ran fails s s2 r := by
  obtain ⟨k1, e1, l1⟩ := h1.last
  have l1 : fails k1 = false := by simpa using l1
  refine ⟨h2.ub, Nat.lt_trans h1.some h2.some, fun k a b => ?_, h2.last⟩
  rcases Nat.lt_trichotomy k k1 with hk | hk | hk
  · exact h1.early k a (by omega)
  · exact hk ▸ l1
  · exact h2.early k (by omega) b

theorem Ran.exn {fails : Nat → Bool} {s s' : State} {r : Out β} (h : Ran fails s s' (Out.exn : Out α)) (hr : r = .exn) : Ran fails s s' r := by
  subst hr
  exact ⟨by simp, h.some, h.early, by simpa using h.last⟩

theorem Ran.ok {fails : Nat → Bool} {s s' : State} {a : α} {b : β} (h : Ran fails s s' (Out.ok a)) : Ran fails s s' (Out.ok b) :=
  ⟨by simp, h.some, h.early, by simpa using h.last⟩

theorem call_spec {fails : Nat → Bool} {s s' : State} {r : Out Unit} (h : call fails s = (r, s')) :
    Ran fails s s' r ∧ s' = { s with calls := s.calls + 1 } := by
  simp only [call] at h
  by_cases f0 : fails s.calls
  · simp [f0] at h
    obtain ⟨rfl, rfl⟩ := h
    exact ⟨⟨by simp, by simp, fun k a b => by simp at b; omega, s.calls, rfl, by simp [f0]⟩, rfl⟩
  · simp [f0] at h
    obtain ⟨rfl, rfl⟩ := h
    exact ⟨⟨by simp, by simp, fun k a b => by simp at b; omega, s.calls, rfl, by simp [f0]⟩, rfl⟩

theorem alloc_spec {fails : Nat → Bool} {s s' : State} {r : Out Nat} (h : alloc fails s = (r, s')) :
    Ran fails s s' r ∧ s'.calls = s.calls + 1 ∧ s'.envs = s.envs ∧
      ((∃ n, r = .ok n ∧ Ext s s' [n] ∧ n = s.next) ∨ (r = .exn ∧ Ext s s' [])) := by
  simp only [alloc] at h
  by_cases f0 : fails s.calls
  · simp [f0] at h
    obtain ⟨rfl, rfl⟩ := h
    exact ⟨⟨by simp, by simp, fun k a b => by simp at b; omega, s.calls, rfl, by simp [f0]⟩, rfl, rfl, .inr ⟨rfl, Ext.refl _ _⟩⟩
  · simp [f0] at h
    obtain ⟨rfl, rfl⟩ := h
    exact ⟨⟨by simp, by simp, fun k a b => by simp at b; omega, s.calls, rfl, by simp [f0]⟩, rfl, rfl,
      .inl ⟨_, rfl, ⟨by simp, by simp, by simp⟩, rfl⟩⟩

/-- Freeing what was just allocated. -/
theorem Ext.drop {s s1 s2 : State} {o : Nat} {new : List Nat} (h1 : Ext s s1 [o]) (h2 : Ext s1 s2 new) (hl : ∀ n ∈ s.live, n < s.next) :
    Ext s { s2 with live := s2.live.filter (· ≠ o) } new := by
  have ho := h1.fresh o (by simp)
  have h1n := h1.next
  have h2n := h2.next
  refine ⟨fun n => ?_, fun n hn => ?_, by simp; omega⟩
  · have a := h2.live n
    have b := h1.live n
    have c := h2.fresh n
    have d := hl n
    simp only [List.mem_filter, decide_eq_true_eq, List.mem_singleton] at *
    constructor
    · grind
    · rintro (h | h)
      · have := c h; exact ⟨a.2 (.inl h), by omega⟩
      · have := d h; exact ⟨a.2 (.inr (b.2 (.inr h))), by omega⟩
  · have := h2.fresh n hn
    simp only; omega

/-- Names of live things are taken. (Concerns co_manager.cpp:73-440, co_env.cpp:32-443.) -/
def State.Named (s : State) : Prop := ∀ n ∈ s.live, n < s.next

theorem Ext.named {s s' : State} {new : List Nat} (h : Ext s s' new) (hs : s.Named) : s'.Named := by
  intro n hn
  have := h.next
  rcases (h.live n).1 hn with hn | hn
  · exact (h.fresh n hn).2
  · have := hs n hn; omega

theorem createCtx_spec {fails : Nat → Bool} {size : Option Nat} {s s' : State} {r : Out Ctx} (hs : s.Named) (h : createCtx fails size s = (r, s')) :
    s'.envs = s.envs ∧ Ran fails s s' r ∧
      match r with
      | .ok c => Ext s s' c.res ∧ s.calls + 2 ≤ s'.calls ∧ (c.stk = none ↔ size = none)
      | .exn => ∃ new, Ext s s' new ∧ (new = [] ↔ s'.calls ≤ s.calls + 2)
      | .ub => False := by
  rcases andThen_cases h with ⟨o, s1, h1, h2⟩ | ⟨h1, rfl⟩ | ⟨h1, rfl⟩
  · obtain ⟨r1, c1, e1, ⟨n, hn, x1, rfl⟩ | ⟨hn, -⟩⟩ := alloc_spec h1
    · cases hn
      simp only [orFree] at h2
      generalize hb : (do
        let st ← match size with
          | none => pure none
          | some n => some <$> createStack fails n
        call fails
        pure (⟨s.next, st.map (·.1), st.bind (·.2)⟩ : Ctx) : M Ctx) s1 = p at h2
      obtain ⟨r2, s2⟩ := p
      have key : s2.envs = s1.envs ∧ Ran fails s1 s2 r2 ∧
          match r2 with
          | .ok c => ∃ new, Ext s1 s2 new ∧ (∀ n, n ∈ c.res ↔ n = s.next ∨ n ∈ new) ∧ (c.stk = none ↔ size = none)
          | .exn => ∃ new, Ext s1 s2 new ∧ (new = [] ↔ s2.calls ≤ s1.calls + 1)
          | .ub => False := by
        cases size with
        | none =>
          simp only [pure] at hb
          rcases andThen_cases hb with ⟨st, s3, h3, h4⟩ | ⟨h3, -⟩ | ⟨h3, -⟩
          · cases h3
            rcases andThen_cases h4 with ⟨_, s4, h5, h6⟩ | ⟨h5, rfl⟩ | ⟨h5, rfl⟩
            · obtain ⟨a, rfl⟩ := call_spec h5
              cases h6
              exact ⟨rfl, a.ok, [], Ext.refl _ _, by simp [Ctx.res], by simp⟩
            · obtain ⟨a, rfl⟩ := call_spec h5
              exact ⟨rfl, a.exn rfl, [], Ext.refl _ _, by simp⟩
            · exact absurd rfl (call_spec h5).1.ub
          · cases h3
          · cases h3
        | some n =>
          rcases andThen_cases hb with ⟨st, s3, h3, h4⟩ | ⟨h3, rfl⟩ | ⟨h3, rfl⟩
          · have h3' : ∃ km, st = some km ∧ createStack fails n s1 = (.ok km, s3) := by
              rcases andThen_cases h3 with ⟨km, s4, h5, h6⟩ | ⟨h5, h6⟩ | ⟨h5, h6⟩
              · cases h6; exact ⟨km, rfl, h5⟩
              · cases h6
              · cases h6
            obtain ⟨⟨k, m⟩, rfl, h5⟩ := h3'
            obtain ⟨a1, a2, a3, a4⟩ := createStack_spec h5
            rcases andThen_cases h4 with ⟨_, s4, h5, h6⟩ | ⟨h5, rfl⟩ | ⟨h5, rfl⟩
            · obtain ⟨a, rfl⟩ := call_spec h5
              cases h6
              refine ⟨a1, (a2.trans a).ok, k :: m.toList, (by simpa using a4.trans (Ext.refl s3 _)), ?_, by simp⟩
              cases m <;> simp [Ctx.res]
            · obtain ⟨a, rfl⟩ := call_spec h5
              refine ⟨a1, (a2.trans a).exn rfl, k :: m.toList, (by simpa using a4.trans (Ext.refl s3 _)), ?_⟩
              have := a2.some
              simp; omega
            · exact absurd rfl (call_spec h5).1.ub
          · have h3' : createStack fails n s1 = (.exn, s2) := by
              rcases andThen_cases h3 with ⟨km, s4, h5, h6⟩ | ⟨h5, h6⟩ | ⟨h5, h6⟩
              · cases h6
              · exact h5
              · cases h6
            obtain ⟨a1, a2, a3, new, a4, a5⟩ := createStack_spec h3'
            have := a2.some
            exact ⟨a1, a2.exn rfl, new, a4, by rw [a5]; omega⟩
          · have h3' : createStack fails n s1 = (.ub, s2) := by
              rcases andThen_cases h3 with ⟨km, s4, h5, h6⟩ | ⟨h5, h6⟩ | ⟨h5, h6⟩
              · cases h6
              · cases h6
              · exact h5
            exact absurd rfl (createStack_spec h3').2.1.ub
      obtain ⟨k1, k2, k3⟩ := key
      cases r2 with
      | ok c =>
        cases h2
        obtain ⟨new, k4, k5, k6⟩ := k3
        refine ⟨k1.trans e1, r1.trans k2, ?_, ?_, k6⟩
        · have := x1.trans k4
          refine ⟨fun n => ?_, fun n hn => ?_, this.next⟩
          · rw [this.live, k5]; simp only [List.mem_append, List.mem_singleton]; grind
          · apply this.fresh; simp only [List.mem_append, List.mem_singleton]; exact ((k5 n).1 hn).symm
        · have := k2.some; omega
      | exn =>
        cases h2
        obtain ⟨new, k4, k5⟩ := k3
        refine ⟨k1.trans e1, ?_, new, x1.drop k4 hs, by rw [k5, c1]⟩
        have := r1.trans k2
        exact ⟨this.ub, this.some, this.early, this.last⟩
      | ub => exact absurd rfl k2.ub
    · cases hn
  · obtain ⟨r1, c1, e1, ⟨n, hn, -⟩ | ⟨-, x1⟩⟩ := alloc_spec h1
    · cases hn
    · exact ⟨e1, r1.exn rfl, [], x1, by simp; omega⟩
  · exact absurd rfl (alloc_spec h1).1.ub

theorem createEnv_spec {fails : Nat → Bool} {s s' : State} {r : Out Nat} (hs : s.Named) (h : createEnv fails s = (r, s')) :
    Ran fails s s' r ∧
      match r with
      | .ok i => i = s.envs.length ∧ ∃ e, s'.envs = s.envs ++ [e] ∧ e.ctxs = [] ∧ e.shut = false ∧ e.shared = none ∧ ∃ new, Ext s s' new ∧ ∀ n, n ∈ e.res ↔ n ∈ new
      | .exn => s'.envs = s.envs ∧ ∃ new, Ext s s' new
      | .ub => False := by
  rcases andThen_cases h with ⟨i, s1, h1, h2⟩ | ⟨h1, rfl⟩ | ⟨h1, rfl⟩
  · obtain ⟨a1, a2, a3, a4, -⟩ := createCtx_spec hs h1
    rcases andThen_cases h2 with ⟨o, s2, h3, h4⟩ | ⟨h3, rfl⟩ | ⟨h3, rfl⟩
    · obtain ⟨b1, b2, b3, ⟨n, hn, b4, -⟩ | ⟨hn, -⟩⟩ := alloc_spec h3
      · cases hn
        rcases andThen_cases h4 with ⟨t, s3, h5, h6⟩ | ⟨h5, rfl⟩ | ⟨h5, rfl⟩
        · have h5' : alloc fails s2 = (.ok t, s3) := by
            simp only [orFree] at h5
            split at h5
            · cases h5
            · rename_i x y; exact h5
          obtain ⟨c1, c2, c3, ⟨n, hn, c4, -⟩ | ⟨hn, -⟩⟩ := alloc_spec h5'
          · cases hn
            have X := (a3.trans b4).trans c4
            have R := (a2.trans b1).trans c1
            rcases andThen_cases h6 with ⟨_, s4, h7, h8⟩ | ⟨h7, rfl⟩ | ⟨h7, rfl⟩
            · obtain ⟨d1, rfl⟩ := call_spec h7
              rcases andThen_cases h8 with ⟨_, s5, h9, h10⟩ | ⟨h9, rfl⟩ | ⟨h9, rfl⟩
              · obtain ⟨e1, rfl⟩ := call_spec h9
                cases h10
                have R' := ((R.trans d1).trans e1)
                refine ⟨⟨by simp, R'.some, R'.early, by simpa using R'.last⟩, by simp [c3, b3, a1], _, by simp [c3, b3, a1]; rfl, rfl, rfl, rfl, _,
                  ⟨X.live, X.fresh, X.next⟩, ?_⟩
                intro n
                simp [Env.res, sharedRes]
                grind
              · obtain ⟨e1, rfl⟩ := call_spec h9
                exact ⟨((R.trans d1).trans e1).exn rfl, by simp [c3, b3, a1], _, ⟨X.live, X.fresh, X.next⟩⟩
              · exact absurd rfl (call_spec h9).1.ub
            · obtain ⟨d1, rfl⟩ := call_spec h7
              exact ⟨(R.trans d1).exn rfl, by simp [c3, b3, a1], _, ⟨X.live, X.fresh, X.next⟩⟩
            · exact absurd rfl (call_spec h7).1.ub
          · cases hn
        · simp only [orFree] at h5
          split at h5
          · rename_i s3 h6
            cases h5
            obtain ⟨c1, c2, c3, ⟨n, hn, -⟩ | ⟨-, c4⟩⟩ := alloc_spec h6
            · cases hn
            · have R := ((a2.trans b1).trans c1)
              refine ⟨⟨by simp, R.some, R.early, by simpa using R.last⟩, by simp [c3, b3, a1], _, a3.trans (b4.drop c4 (a3.named hs))⟩
          · rename_i hne
            exact absurd h5 (hne _)
        · simp only [orFree] at h5
          split at h5
          · cases h5
          · exact absurd rfl (alloc_spec h5).1.ub
      · cases hn
    · obtain ⟨b1, b2, b3, ⟨n, hn, -⟩ | ⟨-, b4⟩⟩ := alloc_spec h3
      · cases hn
      · exact ⟨(a2.trans b1).exn rfl, b3.trans a1, _, a3.trans b4⟩
    · exact absurd rfl (alloc_spec h3).1.ub
  · obtain ⟨a1, a2, new, a3, -⟩ := createCtx_spec hs h1
    exact ⟨a2.exn rfl, a1, new, a3⟩
  · exact absurd rfl (createCtx_spec hs h1).2.1.ub

theorem addCtx_spec {fails : Nat → Bool} {sz e : Nat} {c : Ctx} {x : Env} {s s' : State} {r : Out Unit} (hx : s.envs[e]? = some x)
    (h : addCtx fails sz e c s = (r, s')) :
    r ≠ .ub ∧ s.calls ≤ s'.calls ∧ (∀ k, s.calls ≤ k → k + 1 < s'.calls → fails k = false) ∧
    (r = .exn → x.shut = true ∨ ∃ k, s.calls ≤ k ∧ k < s'.calls ∧ fails k = true) ∧
    (r = .ok () → x.shut = false ∧ ∀ k, s.calls ≤ k → k < s'.calls → fails k = false) ∧
    ∃ sh new cs, s'.envs = s.envs.set e { x with shared := sh, ctxs := cs } ∧ Ext s s' new ∧
      (∀ n, n ∈ sharedRes sh → n ∈ new ∨ n ∈ sharedRes x.shared) ∧ (∀ n, n ∈ sharedRes x.shared → n ∈ sharedRes sh) ∧
      (r = .ok () → cs = x.ctxs ++ [c] ∧ ∀ n, n ∈ new → n ∈ sharedRes sh) ∧ (r ≠ .ok () → cs = x.ctxs) := by
  have hset : s.envs.set e x = s.envs := by
    apply List.ext_getElem?
    intro i
    rw [List.getElem?_set]
    split
    · rename_i he; subst he
      have := (List.getElem?_eq_some_iff.1 hx).1
      simp [this, ← hx]
    · rfl
  have hlt := (List.getElem?_eq_some_iff.1 hx).1
  rcases andThen_cases h with ⟨x', s1, h1, h2⟩ | ⟨h1, rfl⟩ | ⟨h1, rfl⟩
  · simp only [getEnv, hx] at h1
    cases h1
    by_cases hsh : x.shut
    · simp only [hsh, if_true, throw_] at h2
      cases h2
      exact ⟨by simp, Nat.le_refl _, fun k a b => by omega, fun _ => .inl hsh, by simp, x.shared, [], x.ctxs, hset.symm, ⟨by simp, by simp, Nat.le_refl _⟩, by simp, by simp,
        by simp, by simp⟩
    · simp only [hsh, Bool.false_eq_true, if_false] at h2
      have rest : ∀ {s1 : State} {x1 : Env} {r : Out Unit} {s' : State}, s1.envs[e]? = some x1 →
          (do
            let x ← getEnv e
            call fails
            putEnv e { x with ctxs := x.ctxs ++ [c] } : M Unit) s1 = (r, s') →
          Ran fails s1 s' r ∧ ((r = .ok () ∧ s'.envs = s1.envs.set e { x1 with ctxs := x1.ctxs ++ [c] } ∨ r = .exn ∧ s'.envs = s1.envs) ∧ Ext s1 s' []) := by
        intro s1 x1 r s' hx1 h
        rcases andThen_cases h with ⟨x', s2, h1, h2⟩ | ⟨h1, rfl⟩ | ⟨h1, rfl⟩
        · simp only [getEnv, hx1] at h1
          cases h1
          rcases andThen_cases h2 with ⟨_, s3, h3, h4⟩ | ⟨h3, rfl⟩ | ⟨h3, rfl⟩
          · obtain ⟨a, rfl⟩ := call_spec h3
            cases h4
            exact ⟨⟨by simp, a.some, a.early, by simpa using a.last⟩, .inl ⟨rfl, rfl⟩, ⟨by simp, by simp, Nat.le_refl _⟩⟩
          · obtain ⟨a, rfl⟩ := call_spec h3
            exact ⟨a.exn rfl, .inr ⟨rfl, rfl⟩, Ext.refl _ _⟩
          · exact absurd rfl (call_spec h3).1.ub
        · simp [getEnv, hx1] at h1
        · simp [getEnv, hx1] at h1
      by_cases hc : c.stk = none ∧ x.shared = none
      · simp only [share, hc, and_self, if_true] at h2
        rcases andThen_cases h2 with ⟨_, s2, h3, h4⟩ | ⟨h3, rfl⟩ | ⟨h3, rfl⟩
        · rcases andThen_cases h3 with ⟨⟨k, m⟩, s3, h5, h6⟩ | ⟨h5, h6⟩ | ⟨h5, h6⟩
          · obtain ⟨a1, a2, a3, a4⟩ := createStack_spec h5
            cases h6
            have hx2 : (s3.envs.set e { x with shared := some (k, m) })[e]? = some { x with shared := some (k, m) } := by
              rw [a1]; simp [hlt]
            obtain ⟨b1, b2, b3⟩ := rest hx2 h4
            have hR : Ran fails s s' r := by
              have a2' : Ran fails s { s3 with envs := s3.envs.set e { x with shared := some (k, m) } } (Out.ok ()) :=
                ⟨by simp, a2.some, a2.early, by simpa using a2.last⟩
              exact a2'.trans b1
            have hE : Ext s s' (k :: m.toList) := by
              have a4' : Ext s { s3 with envs := s3.envs.set e { x with shared := some (k, m) } } (k :: m.toList) := ⟨a4.live, a4.fresh, a4.next⟩
              simpa using a4'.trans b3
            obtain ⟨kl, l1, l2⟩ := hR.last
            have hs0 := hR.some
            have he : ∀ k, s.calls ≤ k → k + 1 < s'.calls → fails k = false := hR.early
            rcases b2 with ⟨rfl, b2⟩ | ⟨rfl, b2⟩
            · refine ⟨by simp, by omega, he, by simp, fun _ => ⟨by simpa using hsh, fun j j1 j2 => ?_⟩, some (k, m), _, x.ctxs ++ [c], ?_, hE, ?_, ?_, ?_, by simp⟩
              · by_cases hj : j = kl
                · subst hj; simpa using l2
                · exact he j j1 (by omega)
              · rw [b2, a1]; simp
              · intro n hn; exact .inl hn
              · simp [hc.2, sharedRes]
              · exact fun _ => ⟨rfl, fun n hn => hn⟩
            · refine ⟨by simp, by omega, he, fun _ => .inr ⟨kl, by omega, by omega, by simpa using l2⟩, by simp, some (k, m), _, x.ctxs, ?_, hE, ?_, ?_, ?_, by simp⟩
              · rw [b2, a1]
              · intro n hn; exact .inl hn
              · simp [hc.2, sharedRes]
              · simp
          · cases h6
          · cases h6
        · rcases andThen_cases h3 with ⟨⟨k, m⟩, s3, h5, h6⟩ | ⟨h5, h6⟩ | ⟨h5, h6⟩
          · cases h6
          · obtain ⟨a1, a2, a3, new, a4, -⟩ := createStack_spec h5
            obtain ⟨kl, l1, l2⟩ := a2.last
            have := a2.some
            exact ⟨by simp, by omega, a2.early, fun _ => .inr ⟨kl, by omega, by omega, by simpa using l2⟩, by simp, x.shared, new, x.ctxs, by rw [a1]; exact hset.symm, a4,
              by simp +contextual, by simp, by simp, by simp⟩
          · cases h6
        · rcases andThen_cases h3 with ⟨⟨k, m⟩, s3, h5, h6⟩ | ⟨h5, h6⟩ | ⟨h5, h6⟩
          · cases h6
          · cases h6
          · exact absurd rfl (createStack_spec h5).2.1.ub
      · simp only [share, hc, if_false] at h2
        rcases andThen_cases h2 with ⟨_, s2, h3, h4⟩ | ⟨h3, rfl⟩ | ⟨h3, rfl⟩
        · cases h3
          obtain ⟨b1, b2, b3⟩ := rest hx h4
          obtain ⟨kl, l1, l2⟩ := b1.last
          have hs0 := b1.some
          have he := b1.early
          rcases b2 with ⟨rfl, b2⟩ | ⟨rfl, b2⟩
          · refine ⟨by simp, by omega, he, by simp, fun _ => ⟨by simpa using hsh, fun j j1 j2 => ?_⟩, x.shared, [], x.ctxs ++ [c], b2, b3, by simp, by simp, by simp, by simp⟩
            by_cases hj : j = kl
            · subst hj; simpa using l2
            · exact he j j1 (by omega)
          · exact ⟨by simp, by omega, he, fun _ => .inr ⟨kl, by omega, by omega, by simpa using l2⟩, by simp, x.shared, [], x.ctxs, by rw [b2]; exact hset.symm, b3, by simp,
              by simp, by simp, by simp⟩
        · cases h3
        · cases h3
  · simp [getEnv, hx] at h1
  · simp [getEnv, hx] at h1

/-- Names of live things are taken, and envs have only live things. (Concerns co_manager.cpp:73-440, co_env.cpp:32-443.) -/
structure State.WF (s : State) : Prop where
  named : s.Named
  owned : ∀ n ∈ s.owned, n ∈ s.live

/-- What changing one env changes in what all of them have. -/
theorem mem_owned_set {l : List Env} {e : Nat} {y : Env} (n : Nat) :
    n ∈ (l.set e y).flatMap Env.res → n ∈ y.res ∨ n ∈ l.flatMap Env.res := by
  intro h
  obtain ⟨z, hz, hn⟩ := List.mem_flatMap.1 h
  rcases List.mem_or_eq_of_mem_set hz with hz | rfl
  · exact .inr (List.mem_flatMap.2 ⟨z, hz, hn⟩)
  · exact .inl hn

theorem owned_set_mem {l : List Env} {e : Nat} {x y : Env} (hx : l[e]? = some x) (hxy : ∀ n ∈ x.res, n ∈ y.res) (n : Nat) :
    n ∈ l.flatMap Env.res ∨ n ∈ y.res → n ∈ (l.set e y).flatMap Env.res := by
  have hlt := (List.getElem?_eq_some_iff.1 hx).1
  have hy : y ∈ l.set e y := List.mem_set hlt _
  rintro (h | h)
  · obtain ⟨z, hz, hn⟩ := List.mem_flatMap.1 h
    obtain ⟨i, hi⟩ := List.mem_iff_getElem?.1 hz
    by_cases hie : i = e
    · subst hie
      rw [hx] at hi; cases hi
      exact List.mem_flatMap.2 ⟨y, hy, hxy n hn⟩
    · refine List.mem_flatMap.2 ⟨z, List.mem_iff_getElem?.2 ⟨i, ?_⟩, hn⟩
      rw [List.getElem?_set_ne (fun h => hie h.symm)]; exact hi
  · exact List.mem_flatMap.2 ⟨y, hy, h⟩

/-- What `create` does, in all cases: what it leaves in the envs, what it leaks, and which failures are its cause. (Concerns co_manager.cpp:73-440, co_env.cpp:32-443.) -/
def Result (fails : Nat → Bool) (to : Option Nat) (s s' : State) (r : Out Ctx) : Prop :=
    r ≠ .ub ∧ s'.WF ∧ (s'.envs.map (·.ctxs) = s.envs.map (·.ctxs) ∨ s'.envs.map (·.ctxs) = s.envs.map (·.ctxs) ++ [[]] ∨ ∃ c, r = .ok c) ∧
    match r with
    | .ok c => (∀ n ∈ s'.leaked, n ∈ s.leaked) ∧ (∀ n ∈ c.res, n ∈ s'.live) ∧ (∃ e, s'.envs[to.getD s.envs.length]? = some e ∧ c ∈ e.ctxs) ∧
        (∀ k, s.calls ≤ k → k < s'.calls → fails k = false) ∧ ∀ e, to = some e → (s.envs[e]?.map (·.shut)) = some false
    | .exn => ((∀ n ∈ s'.leaked, n ∈ s.leaked) ↔ s'.calls ≤ s.calls + 2) ∧
        ((∃ k, s.calls ≤ k ∧ k < s'.calls ∧ fails k = true) ∨ ∃ e, to = some e ∧ (s.envs[e]?.map (·.shut)) = some true)
    | .ub => False

theorem create_tail {fails : Nat → Bool} {sz e : Nat} {to : Option Nat} {c : Ctx} {s s1 s3 s' : State} {x : Env} {new0 : List Nat} {r : Out Ctx} (hs : s.WF)
    (a3 : Ext s s1 c.res) (a4 : s.calls + 2 ≤ s1.calls) (acalls : ∀ k, s.calls ≤ k → k < s1.calls → fails k = false)
    (lost : ∀ {s2 : State} {new : List Nat}, Ext s1 s2 new → (∀ n ∈ s2.owned, n ∈ new ∨ n ∈ s.owned) → ¬ (∀ n ∈ s2.leaked, n ∈ s.leaked))
    (hx : s3.envs[e]? = some x) (hE : Ext s1 s3 new0) (hO : ∀ n, n ∈ s3.owned ↔ n ∈ s.owned ∨ n ∈ new0) (hc3 : s1.calls + 1 ≤ s3.calls)
    (hf3 : ∀ k, s1.calls ≤ k → k < s3.calls → fails k = false)
    (hm : s3.envs.map (·.ctxs) = s.envs.map (·.ctxs) ∨ s3.envs.map (·.ctxs) = s.envs.map (·.ctxs) ++ [[]])
    (hto : to = some e ∧ s3.envs = s.envs ∨ to = none ∧ e = s.envs.length ∧ x.shut = false)
    (h : (do addCtx fails sz e c; pure c : M Ctx) s3 = (r, s')) : Result fails to s s' r := by
  have hlt := (List.getElem?_eq_some_iff.1 hx).1
  have same : ∀ {r1 : Out Unit} {s4 : State}, addCtx fails sz e c s3 = (r1, s4) → r1 = .exn → r = .exn → s' = s4 → Result fails to s s' r := by
    rintro r1 s4 h1 rfl rfl rfl
    obtain ⟨-, b1, b2, b3, -, sh, new, cs, b5, b6, b7, b8, -, b9⟩ := addCtx_spec hx h1
    obtain rfl := b9 (by simp)
    have hE' := hE.trans b6
    have hown : ∀ n ∈ s'.owned, n ∈ new ++ new0 ∨ n ∈ s.owned := by
      intro n hn
      rw [State.owned, b5] at hn
      rw [List.mem_append]
      have hx3 : ∀ n ∈ x.res, n ∈ s3.owned := fun n hn => List.mem_flatMap.2 ⟨x, List.mem_of_getElem? hx, hn⟩
      rcases mem_owned_set n hn with hn | hn
      · simp only [Env.res, List.mem_append, List.mem_cons] at hn
        have := hx3 n
        simp only [Env.res, List.mem_append, List.mem_cons] at this
        have := b7 n
        have := hO n
        grind
      · have := (hO n).1 hn; grind
    refine ⟨by simp, ⟨hE'.named (a3.named hs.named), fun n hn => ?_⟩, ?_, ?_, ?_⟩
    · refine (hE'.live n).2 ?_
      rcases hown n hn with hn | hn
      · exact .inl hn
      · exact .inr ((a3.live n).2 (.inr (hs.owned n hn)))
    · have : s'.envs.map (·.ctxs) = s3.envs.map (·.ctxs) := by
        rw [b5]
        apply List.ext_getElem?
        intro i
        simp only [List.getElem?_map, List.getElem?_set]
        split
        · rename_i he; subst he; simp [hx]
        · rfl
      rw [this]
      rcases hm with hm | hm
      · exact .inl hm
      · exact .inr (.inl hm)
    · constructor
      · intro hall; exact absurd hall (lost hE' hown)
      · intro hc; omega
    · rcases b3 rfl with hsh | ⟨k, k1, k2, k3⟩
      · rcases hto with ⟨rfl, he⟩ | ⟨-, -, hf⟩
        · exact .inr ⟨e, rfl, by rw [← he, hx]; simp [hsh]⟩
        · rw [hsh] at hf; cases hf
      · exact .inl ⟨k, by omega, k2, k3⟩
  rcases andThen_cases h with ⟨_, s4, h1, h2⟩ | ⟨h1, rfl⟩ | ⟨h1, rfl⟩
  · cases h2
    obtain ⟨-, b1, b2, -, b4, sh, new, cs, b5, b6, b7, b8, b9, -⟩ := addCtx_spec hx h1
    obtain ⟨rfl, b10⟩ := b9 rfl
    obtain ⟨b4, b4'⟩ := b4 rfl
    have hE' := hE.trans b6
    have hxy : ∀ n ∈ x.res, n ∈ Env.res { x with shared := sh, ctxs := x.ctxs ++ [c] } := by
      intro n hn
      simp only [Env.res, List.mem_append, List.mem_cons, List.flatMap_append] at hn ⊢
      have := b8 n
      grind
    have hown : ∀ n, n ∈ s'.owned ↔ n ∈ c.res ∨ n ∈ new ++ new0 ∨ n ∈ s.owned := by
      intro n
      have hx3 : ∀ n ∈ x.res, n ∈ s3.owned := fun n hn => List.mem_flatMap.2 ⟨x, List.mem_of_getElem? hx, hn⟩
      rw [State.owned, b5, List.mem_append]
      constructor
      · intro hn
        rcases mem_owned_set n hn with hn | hn
        · simp only [Env.res, List.mem_append, List.mem_cons, List.flatMap_append, List.flatMap_cons, List.flatMap_nil, List.append_nil] at hn
          have := hx3 n
          simp only [Env.res, List.mem_append, List.mem_cons] at this
          have := b7 n
          have := hO n
          grind
        · have := (hO n).1 hn; grind
      · intro hn
        apply owned_set_mem hx hxy
        rcases hn with hn | (hn | hn) | hn
        · right; simp only [Env.res, List.mem_append, List.flatMap_append, List.flatMap_cons, List.flatMap_nil, List.append_nil]; grind
        · right
          have := b10 n hn
          simp only [Env.res, List.mem_append]; grind
        · left; exact (hO n).2 (.inr hn)
        · left; exact (hO n).2 (.inl hn)
    refine ⟨by simp, ⟨hE'.named (a3.named hs.named), fun n hn => ?_⟩, .inr (.inr ⟨c, rfl⟩), ?_, ?_, ?_, ?_, ?_⟩
    · rw [hE'.live, a3.live]
      rcases (hown n).1 hn with hn | hn | hn
      · exact .inr (.inl hn)
      · exact .inl hn
      · exact .inr (.inr (hs.owned n hn))
    · intro n hn
      simp only [State.leaked, List.mem_filter, decide_eq_true_eq, hown, hE'.live, a3.live] at hn ⊢
      grind
    · intro n hn
      exact (hE'.live n).2 (.inr ((a3.live n).2 (.inl hn)))
    · refine ⟨{ x with shared := sh, ctxs := x.ctxs ++ [c] }, ?_, ?_⟩
      · have : to.getD s.envs.length = e := by
          rcases hto with ⟨rfl, -⟩ | ⟨rfl, rfl, -⟩ <;> rfl
        rw [this, b5]; simp [hlt]
      · simp
    · intro k k1 k2
      rcases Nat.lt_or_ge k s1.calls with hk | hk
      · exact acalls k k1 hk
      · rcases Nat.lt_or_ge k s3.calls with hk' | hk'
        · exact hf3 k hk hk'
        · exact b4' k hk' k2
    · rintro e' rfl
      rcases hto with ⟨he, he'⟩ | ⟨he, -⟩
      · cases he; rw [← he', hx]; simp [b4]
      · cases he
  · exact same h1 rfl rfl rfl
  · exact absurd rfl (addCtx_spec hx h1).1

theorem create_spec {fails : Nat → Bool} {sz : Nat} {size to : Option Nat} {s s' : State} {r : Out Ctx} (hs : s.WF)
    (hto : ∀ e, to = some e → e < s.envs.length) (h : create fails sz size to s = (r, s')) : Result fails to s s' r := by
  rcases andThen_cases h with ⟨c, s1, h1, h2⟩ | ⟨h1, rfl⟩ | ⟨h1, rfl⟩
  · obtain ⟨a1, a2, a3, a4, a5⟩ := createCtx_spec hs.named h1
    have w1 : s1.Named := a3.named hs.named
    have o1 : ∀ n ∈ s1.owned, n ∈ s.owned := fun n hn => by simpa [State.owned, a1] using hn
    obtain ⟨al, al1, al2⟩ := a2.last
    have al2 : fails al = false := by simpa using al2
    have acalls : ∀ k, s.calls ≤ k → k < s1.calls → fails k = false := fun k k1 k2 => by
      by_cases hk : k = al
      · exact hk ▸ al2
      · exact a2.early k k1 (by omega)
    -- once the object is there and nobody has it, it is lost
    have lost : ∀ {s2 : State} {new : List Nat}, Ext s1 s2 new → (∀ n ∈ s2.owned, n ∈ new ∨ n ∈ s.owned) →
        ¬ (∀ n ∈ s2.leaked, n ∈ s.leaked) := by
      intro s2 new hx ho hall
      have hfr := a3.fresh c.obj (by simp [Ctx.res])
      have hnl : c.obj ∉ s.live := fun hl => by have := hs.named _ hl; omega
      have hno : c.obj ∉ s2.owned := fun hc => by
        rcases ho _ hc with hn | hn
        · have := hx.fresh _ hn; omega
        · exact hnl (hs.owned _ hn)
      have : c.obj ∈ s2.leaked := by
        simp only [State.leaked, List.mem_filter, decide_eq_true_eq]
        exact ⟨(hx.live _).2 (.inr ((a3.live _).2 (.inl (by simp [Ctx.res])))), hno⟩
      have := hall _ this
      simp only [State.leaked, List.mem_filter] at this
      exact hnl this.1
    rcases andThen_cases h2 with ⟨_, s2, h3, h4⟩ | ⟨h3, rfl⟩ | ⟨h3, rfl⟩
    · obtain ⟨b1, rfl⟩ := call_spec h3
      have bcall : fails s1.calls = false := by
        obtain ⟨k, e1, e2⟩ := b1.last
        simp at e1 e2
        exact e1 ▸ e2
      cases to with
      | some e =>
        simp only at h4
        rcases andThen_cases h4 with ⟨e', s3, h5, h6⟩ | ⟨h5, -⟩ | ⟨h5, -⟩
        · cases h5
          have hlt := hto e rfl
          exact create_tail (new0 := []) (x := s.envs[e]) hs a3 a4 acalls lost (by simp [a1]) (Ext.refl _ _) (by simp [State.owned, a1]) (by simp)
            (fun k k1 k2 => by simp at k2; exact (show k = s1.calls by omega) ▸ bcall) (by simp [a1]) (.inl ⟨rfl, by simp [a1]⟩) h6
        · cases h5
        · cases h5
      | none =>
        simp only at h4
        rcases andThen_cases h4 with ⟨e, s3, h5, h6⟩ | ⟨h5, rfl⟩ | ⟨h5, rfl⟩
        · obtain ⟨c1, rfl, x, c2, c3, c4, c5, new, c6, c7⟩ := createEnv_spec (s := { s1 with calls := s1.calls + 1 }) w1 h5
          have E : Ext s1 s3 new := ⟨c6.live, c6.fresh, c6.next⟩
          obtain ⟨kl, k1, k2⟩ := c1.last
          have k2 : fails kl = false := by simpa using k2
          have cs := c1.some
          simp only at cs c2
          refine create_tail (new0 := new) (x := x) hs a3 a4 acalls lost (by simp [c2]) E (fun n => ?_) (by omega) (fun k j1 j2 => ?_) (.inr (by simp [c2, a1, c3]))
            (.inr ⟨rfl, by simp [a1], c4⟩) h6
          · simp [State.owned, c2, a1, c7]
          · rcases Nat.lt_trichotomy k s1.calls with hk | hk | hk
            · omega
            · exact hk ▸ bcall
            · by_cases hk' : k = kl
              · exact hk' ▸ k2
              · exact c1.early k (by simp; omega) (by omega)
        · obtain ⟨c1, c2, new, c6⟩ := createEnv_spec (s := { s1 with calls := s1.calls + 1 }) w1 h5
          have E : Ext s1 s' new := ⟨c6.live, c6.fresh, c6.next⟩
          obtain ⟨kl, k1, k2⟩ := c1.last
          have cs := c1.some
          simp only at cs c2
          have ho : ∀ n ∈ s'.owned, n ∈ s.owned := fun n hn => by simpa [State.owned, c2, a1] using hn
          refine ⟨by simp, ⟨E.named w1, fun n hn => ?_⟩, .inl (by rw [c2, a1]), ?_, .inl ⟨kl, by omega, by omega, by simpa using k2⟩⟩
          · exact (E.live n).2 (.inr ((a3.live n).2 (.inr (hs.owned n (ho n hn)))))
          · constructor
            · intro h; exact absurd h (lost E (fun n hn => .inr (ho n hn)))
            · intro h; omega
        · exact absurd rfl (createEnv_spec (s := { s1 with calls := s1.calls + 1 }) w1 h5).1.ub
    · obtain ⟨b1, rfl⟩ := call_spec h3
      obtain ⟨k, e1, e2⟩ := b1.last
      refine ⟨by simp, ⟨w1, fun n hn => ?_⟩, .inl (by simp [a1]), ?_, .inl ⟨k, ?_, ?_, by simpa using e2⟩⟩
      · exact (a3.live n).2 (.inr (hs.owned n (o1 n hn)))
      · have hl := lost (s2 := { s1 with calls := s1.calls + 1 }) (Ext.refl s1 _) (fun n hn => .inr (o1 n hn))
        constructor
        · intro h; exact absurd h hl
        · intro h; simp at h; omega
      · have := a2.some; simp at e1; omega
      · simp at e1; simp; omega
    · exact absurd rfl (call_spec h3).1.ub
  · obtain ⟨a1, a2, new, a3, a4⟩ := createCtx_spec hs.named h1
    have ho : s'.owned = s.owned := by simp [State.owned, a1]
    obtain ⟨k, e1, e2⟩ := a2.last
    refine ⟨by simp, ⟨a3.named hs.named, fun n hn => (a3.live n).2 (.inr (hs.owned n (ho ▸ hn)))⟩, .inl (by rw [a1]), ?_, .inl ⟨k, ?_, by omega, by simpa using e2⟩⟩
    · rw [← a4]
      constructor
      · intro hall
        cases new with
        | nil => rfl
        | cons n new =>
          have hfr := a3.fresh n (by simp)
          have hnl : n ∉ s.live := fun hl => by have := hs.named _ hl; omega
          have := hall n (by
            simp only [State.leaked, List.mem_filter, decide_eq_true_eq]
            exact ⟨(a3.live n).2 (.inl (by simp)), fun hc => hnl (hs.owned n (ho ▸ hc))⟩)
          simp only [State.leaked, List.mem_filter] at this
          exact absurd this.1 hnl
      · rintro rfl n hn
        simp only [State.leaked, List.mem_filter, decide_eq_true_eq, ho] at hn ⊢
        exact ⟨by simpa using (a3.live n).1 hn.1, hn.2⟩
    · have := a2.some; omega
  · exact absurd rfl (createCtx_spec hs.named h1).2.1.ub

/-! ## C110 -/

/-- **C110, success**: the coroutine is in the list of its env, everything that was allocated belongs to an env, no call has failed, and
the env is not one that is stopped. -/
theorem C110_created {fails : Nat → Bool} {sz : Nat} {size to : Option Nat} {s s' : State} {c : Ctx} (hs : s.WF)
    (hto : ∀ e, to = some e → e < s.envs.length) (h : create fails sz size to s = (.ok c, s')) :
    (∃ e, s'.envs[to.getD s.envs.length]? = some e ∧ c ∈ e.ctxs) ∧ (∀ n ∈ c.res, n ∈ s'.live) ∧ (∀ n ∈ s'.leaked, n ∈ s.leaked) ∧
      (∀ k, s.calls ≤ k → k < s'.calls → fails k = false) ∧ ∀ e, to = some e → (s.envs[e]?.map (·.shut)) = some false := by
  obtain ⟨-, -, -, h1, h2, h3, h4, h5⟩ := create_spec hs hto h
  exact ⟨h3, h2, h1, h4, h5⟩

/-- **C110, failure leaves the scheduler alone**: an exception means that a call has failed or that the env is stopped; no env has got or lost a
coroutine (there may be a new env, without coroutines). It never ends otherwise (no undefined behaviour). -/
theorem C110_nothing_scheduled {fails : Nat → Bool} {sz : Nat} {size to : Option Nat} {s s' : State} {r : Out Ctx} (hs : s.WF)
    (hto : ∀ e, to = some e → e < s.envs.length) (h : create fails sz size to s = (r, s')) :
    (∃ c, r = .ok c) ∨ r = .exn ∧
      (s'.envs.map (·.ctxs) = s.envs.map (·.ctxs) ∨ s'.envs.map (·.ctxs) = s.envs.map (·.ctxs) ++ [[]]) ∧
      ((∃ k, s.calls ≤ k ∧ k < s'.calls ∧ fails k = true) ∨ ∃ e, to = some e ∧ (s.envs[e]?.map (·.shut)) = some true) := by
  obtain ⟨h0, -, h1, h2⟩ := create_spec hs hto h
  cases r with
  | ok c => exact .inl ⟨c, rfl⟩
  | exn => exact .inr ⟨rfl, h1.imp_right (·.resolve_right nofun), h2.2⟩
  | ub => exact absurd rfl h0

/-- **C110, what a failure leaks, exactly** (partial, because the property asks that nothing leaks): nothing if and only if it is one of the first two
calls that fails, which are the allocation of the `co_ctx` and the `mmap` of its stack. Whatever fails later, the `co_ctx` or its stack is never freed. -/
theorem C110_leaks_iff_partial {fails : Nat → Bool} {sz : Nat} {size to : Option Nat} {s s' : State} (hs : s.WF)
    (hto : ∀ e, to = some e → e < s.envs.length) (h : create fails sz size to s = (.exn, s')) :
    (∀ n ∈ s'.leaked, n ∈ s.leaked) ↔ s'.calls ≤ s.calls + 2 :=
  (create_spec hs hto h).2.2.2.1

/-- The program tries `n` times to create a coroutine, whatever happens. (Concerns co_manager.cpp:73-440, co_env.cpp:32-443.) -/
def attempts (fails : Nat → Bool) (sz : Nat) (size to : Option Nat) : Nat → State → State
  | 0, s => s
  | n + 1, s => attempts fails sz size to n (create fails sz size to s).2

/-- **Not C110**: `n` coroutines for an env that is stopped (`bind_env`; "env state error", co_env.cpp:61-64), though no allocation fails: `n` objects, `n` stacks and
`n` times their memory are lost for ever. -/
theorem C110_stopped_env_leaks (sz m e : Nat) (x : Env) (hx : x.shut = true) (n : Nat) : ∀ s : State, s.WF → s.envs[e]? = some x →
    (attempts (fun _ => false) sz (some (m + 1)) (some e) n s).leaked.length = 3 * n + s.leaked.length := by
  induction n with
  | zero => intro s _ _; simp [attempts]
  | succ n ih =>
    intro s hs he
    have key : create (fun _ => false) sz (some (m + 1)) (some e) s
        = (.exn, { s with next := s.next + 3, live := (s.next + 2) :: (s.next + 1) :: s.next :: s.live, calls := s.calls + 5 }) := by
      simp [create, createCtx, createStack, addCtx, getEnv, throw_, bind, andThen, pure, ret, alloc, call, orFree, Functor.map, he, hx]
    simp only [attempts, key]
    have hw := (create_spec hs (fun e' h => by cases h; exact (List.getElem?_eq_some_iff.1 he).1) key).2.1
    rw [ih _ hw he]
    have ho : ∀ k, s.next ≤ k → k ∉ s.owned := fun k hk hc => by have := hs.named _ (hs.owned k hc); omega
    have h2 := ho (s.next + 2) (by omega)
    have h1 := ho (s.next + 1) (by omega)
    have h0 := ho s.next (by omega)
    have hl : State.leaked { s with next := s.next + 3, live := (s.next + 2) :: (s.next + 1) :: s.next :: s.live, calls := s.calls + 5 }
        = (s.next + 2) :: (s.next + 1) :: s.next :: s.leaked := by
      change List.filter (fun n => decide (n ∉ s.owned)) ((s.next + 2) :: (s.next + 1) :: s.next :: s.live) = _
      rw [List.filter_cons_of_pos (by exact decide_eq_true h2), List.filter_cons_of_pos (by exact decide_eq_true h1),
        List.filter_cons_of_pos (by exact decide_eq_true h0)]
      rfl
    rw [hl]
    simp only [List.length_cons]
    omega

/-! ## The timer thread -/

/-- A step of the timers, or: the creation of the coroutine for a callback fails (co_manager.cpp:366-370). The exception leaves `timer_routine__`, the queue mutex is released,
`async` keeps the exception in `background_task__`, where nobody looks for it (co_manager.cpp:413-419 calls `wait`, not `get`). -/
def tstep (cfg : Timer.Id → Timer.Kind) (s : Timer.State) : Option Timer.Act → Option (Timer.State × List Timer.Ev)
  | some a => Timer.step cfg s a
  | none => match s.pc, s.q with
    | .look, x :: _ => if (s.tm x).expire ≤ s.now then some ({ s with pc := .exited }, []) else none
    | _, _ => none

theorem exited_step {cfg : Timer.Id → Timer.Kind} {s s' : Timer.State} {a : Option Timer.Act} {es : List Timer.Ev} (hp : s.pc = .exited)
    (h : tstep cfg s a = some (s', es)) : s'.pc = .exited ∧ ∀ x t, .fire x t ∉ es := by
  cases a with
  | none => simp [tstep, hp] at h
  | some a =>
    simp only [tstep, Timer.step, hp, reduceCtorEq, if_false] at h
    cases a with
    | tick d => cases h; simp
    | start x =>
      simp only at h
      repeat' split at h
      all_goals cases h
      · simp [hp]
      · simp [Timer.State.doStart, Timer.State.notify, hp]
    | stop x =>
      simp only at h
      repeat' split at h
      all_goals cases h
      · simp [hp]
      · simp [Timer.State.doStop, Timer.State.notify, hp]
    | thr d => simp at h
    | wake sp => simp at h
    | cb x =>
      simp only at h
      split at h <;> cases h
      simp
    | clean => cases h; simp
    | cleanNotify =>
      simp only at h
      split at h <;> cases h
      simp [Timer.State.notify, hp]

theorem exited_runs {cfg : Timer.Id → Timer.Kind} {s s' : Timer.State} {as : List (Option Timer.Act)} {es : List Timer.Ev} (hp : s.pc = .exited)
    (h : runs (tstep cfg) s as = some (s', es)) : ∀ x t, .fire x t ∉ es := by
  induction as generalizing s es with
  | nil => cases h; simp
  | cons a as ih =>
    obtain ⟨s4, e1, e2, h3, h4, rfl⟩ := runs_cons h
    have := exited_step hp h3
    intro x t hm
    rcases List.mem_append.1 hm with hm | hm
    · exact this.2 x t hm
    · exact ih this.1 h4 x t hm

/-- **Not C110 for timers**: one failed creation of a coroutine for a callback, and no timer of the program fires any more, whatever is started
later. Every sleeping coroutine sleeps for ever. -/
theorem C110_timers_stop {cfg : Timer.Id → Timer.Kind} {s1 s2 s3 : Timer.State} {es es' : List Timer.Ev} {as : List (Option Timer.Act)}
    (h1 : tstep cfg s1 none = some (s2, es)) (h2 : runs (tstep cfg) s2 as = some (s3, es')) : ∀ x t, .fire x t ∉ es' := by
  have hp : s2.pc = .exited := by
    simp only [tstep] at h1
    split at h1
    · split at h1 <;> cases h1; rfl
    · cases h1
  exact exited_runs hp h2

/-! ## Examples -/

/-- One env with one coroutine. (Concerns co_manager.cpp:73-440, co_env.cpp:32-443.) -/
def one : State := ⟨7, [6, 5, 4, 3, 2, 1, 0], [⟨0, some 1, ⟨2, some 3, none⟩, none, false, [⟨4, some 5, some 6⟩]⟩], 0⟩

/-- It is a well-formed state. -/
theorem one_wf : one.WF := ⟨by unfold State.Named one; decide, by decide⟩

/-- C110: nothing fails. -/
example : (create (fun _ => false) 64 (some 64) (some 0) one).1 = .ok ⟨7, some 9, some 8⟩
    ∧ (create (fun _ => false) 64 (some 64) (some 0) one).2.leaked = [] := by decide

/-- C110: `mmap` fails; nothing is left. -/
example : (create (fun k => k = 1) 64 (some 64) (some 0) one).1 = .exn
    ∧ (create (fun k => k = 1) 64 (some 64) (some 0) one).2.live = one.live := by decide

/-- Not C110: the allocation of the `co_stack` fails, its memory is lost. -/
example : (create (fun k => k = 2) 64 (some 64) (some 0) one).1 = .exn
    ∧ (create (fun k => k = 2) 64 (some 64) (some 0) one).2.leaked = [8] := by decide

/-- Not C110: no thread for a new env (the tenth call): the coroutine, its stack, and the idle coroutine of the env are lost. -/
example : (create (fun k => k = 9) 64 (some 64) none one).1 = .exn
    ∧ (create (fun k => k = 9) 64 (some 64) none one).2.leaked = [11, 10, 9, 8, 7] := by decide

/-- Not C110: the subscription of the new env fails: its thread runs for ever, in no set. -/
example : (create (fun k => k = 10) 64 (some 64) none one).2.leaked = [13, 12, 11, 10, 9, 8, 7] := by decide

/-- A timer of 5 ns, another of 9 ns: the creation for the first fails; then nothing fires. (Concerns co_manager.cpp:73-440, co_env.cpp:32-443.) -/
def timerDemo : List (Option Timer.Act) :=
  [some (.start 0), some (.start 1), some (.thr 0), some (.thr 0), some (.tick 5), none, some (.tick 9)]

/-- The demo ends with the second timer armed and expired, and the thread gone. -/
example : (runs (tstep fun i => .rel (5 + 4 * i) false) (Timer.State.init (fun i => .rel (5 + 4 * i) false) 0) timerDemo).map
    (fun r => (r.1.pc, r.1.q, r.2)) = some (.exited, [0, 1], [.start 0 5, .start 1 9]) := by decide

end Verif.Create
