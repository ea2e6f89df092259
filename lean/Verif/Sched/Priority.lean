import Verif.Base.Lts

/-! # C47, C52: the priority of a coroutine, and what waiting does to it -/

namespace Verif.Priority

/-- The limits of co_ctx.cpp:99-106 (`CO_MAX_PRIORITY` is 100, co_define.h:34). -/
def clamp (p : Int) : Int :=
  let p := if p ≥ 100 then 100 - 1 else p
  if p < 0 then 0 else p

/-- Implicit conversion of a `size_t` to the `int` parameter of `set_priority` (co_ctx.cpp:55): modulo 2^32, two's complement. -/
def toInt (n : UInt64) : Int := (BitVec.ofNat 32 n.toNat).toInt

/-- The part of a `co_ctx` that concerns priority: `priority__` (co_ctx.h:54) and `CO_CTX_FLAG_IDLE`. -/
structure Ctx where
  prio : Int
  idle : Bool
deriving DecidableEq, Repr

/-- `co_ctx::set_priority` (co_ctx.cpp:91-119), without the event (that is Verif.Sched.Env). The parameter is an `int`. -/
def Ctx.setPriority (c : Ctx) (p : Int) : Ctx := if c.idle then c else { c with prio := clamp p }

/-- The constructor with option `priority` (co_ctx.cpp:50-56, co_ctx_config.h:14). Flags are set only after construction
(co_ctx_factory.cpp), so the idle coroutine is clamped here too. -/
def Ctx.new (opt : UInt64) : Ctx := Ctx.setPriority ⟨99, false⟩ (toInt opt)

/-- C47 for `set_priority`: the effective priority is the requested one limited to 0..99, for every `int`. -/
theorem C47_set_priority (c : Ctx) (hc : c.idle = false) (p : Int) : (c.setPriority p).prio = max 0 (min 99 p) := by
  simp only [Ctx.setPriority, hc, clamp]
  simp only [Bool.false_eq_true, if_false]
  split <;> split <;> omega

/-- C47 for the option: every value below 2^31 is limited to 0..99. The rest is false of the code, see `C47_option_wraps`. -/
theorem C47_option_partial (opt : UInt64) (h : opt.toNat < 2 ^ 31) : (Ctx.new opt).prio = min 99 (opt.toNat : Int) := by
  have : toInt opt = opt.toNat := by
    rw [toInt, BitVec.toInt_eq_toNat_bmod, BitVec.toNat_ofNat, Nat.mod_eq_of_lt (by omega)]
    rw [Int.bmod_eq_of_le] <;> omega
  rw [Ctx.new, C47_set_priority _ rfl, this]
  omega

/-- C47, whatever the option: the effective priority is always within 0..99. -/
theorem C47_range (opt : UInt64) : 0 ≤ (Ctx.new opt).prio ∧ (Ctx.new opt).prio ≤ 99 := by
  rw [Ctx.new, C47_set_priority _ rfl]
  omega

/-- C47 is false for large option values, exactly when the lower 32 bits, read as a signed number, are below 99: the option 2^31 is an
effective priority of 0, the highest, where 99 is the requested one limited to 0..99. -/
theorem C47_option_wraps (opt : UInt64) (h : 2 ^ 31 ≤ opt.toNat) :
    (Ctx.new opt).prio ≠ min 99 (opt.toNat : Int) ↔ (BitVec.ofNat 32 opt.toNat).toInt < 99 := by
  rw [Ctx.new, C47_set_priority _ rfl, toInt]
  omega

/-- The half-open half of those values: 2^31 ≤ option < 2^32 all become 0. -/
theorem C47_option_zero (opt : UInt64) (h : 2 ^ 31 ≤ opt.toNat) (h' : opt.toNat < 2 ^ 32) : (Ctx.new opt).prio = 0 := by
  have : toInt opt < 0 := by
    rw [toInt, BitVec.toInt_eq_toNat_bmod, BitVec.toNat_ofNat, Nat.mod_eq_of_lt (by omega), Int.bmod_def]
    omega
  rw [Ctx.new, C47_set_priority _ rfl]
  omega

/-- Concrete cases: 50 stays, 1000 is limited, 2^32 + 5 becomes 5, 2^31 becomes 0; -3 becomes 0. -/
example : ((Ctx.new 50).prio, (Ctx.new 1000).prio, (Ctx.new 4294967301).prio, (Ctx.new 2147483648).prio,
    ((Ctx.new 50).setPriority (-3)).prio) = (50, 99, 5, 0, 0) := by decide

/-! ## C52

Coroutines, envs, and `wait_ctx` reduced to its priority changes. `old_priority` is a local variable; the restoring `CoDefer` runs
`this->current_ctx()->set_priority(old_priority)` where `this` is the env on which the wait began (co_env.cpp:107-109, 161-164), on every
exit. -/

/-- How a wait ends: value, rethrow (co_env.cpp:150, 185), nullopt (:147). -/
inductive Out
  | value
  | rethrow
  | nullopt
deriving DecidableEq, Repr

/-- State: the coroutines, the env of each, the current coroutine of each env, and for each coroutine in a wait the env it began on and
`old_priority`. (co_ctx.h:54, co_env.cpp:107-109.) -/
structure State where
  ctx : Nat → Ctx
  home : Nat → Nat
  cur : Nat → Nat
  inWait : Nat → Option (Nat × Int)

/-- Events: coroutine `c` calls or leaves `wait_ctx`, with its priority right before and right after. (Concerns co_env.cpp:80-185, co_ctx.cpp:50-119.) -/
inductive Ev
  | call (c : Nat) (p : Int)
  | over (c : Nat) (o : Out) (p : Int)
deriving DecidableEq, Repr

/-- Choices. (Concerns co_env.cpp:80-185, co_ctx.cpp:50-119.) -/
inductive Act
  /-- anyone sets the priority of a coroutine -/
  | setPriority (c : Nat) (p : Int)
  /-- the scheduler of env `e` switches to coroutine `c` -/
  | switch (e c : Nat)
  /-- a suspended coroutine is moved to another env (co_env.cpp:80-97) -/
  | move (c e : Nat)
  /-- the current coroutine of its env waits for `a` -/
  | wait (c a : Nat)
  | leave (c : Nat) (o : Out)
deriving DecidableEq, Repr

/-- Change one coroutine. (Concerns co_env.cpp:80-185, co_ctx.cpp:50-119.) -/
def State.upd (s : State) (c : Nat) (x : Ctx) : State := { s with ctx := fun d => if d = c then x else s.ctx d }

/-- One step; `mv` says whether coroutines are moved between envs at all. (Concerns co_env.cpp:80-185, co_ctx.cpp:50-119.) -/
def step (mv : Bool) (s : State) : Act → Option (State × List Ev)
  | .setPriority c p => some (s.upd c ((s.ctx c).setPriority p), [])
  | .switch e c => if s.home c = e then some ({ s with cur := fun d => if d = e then c else s.cur d }, []) else none
  | .move c e => if mv = true ∧ s.cur (s.home c) ≠ c then some ({ s with home := fun d => if d = c then e else s.home d }, []) else none
  | .wait c a =>
    if s.cur (s.home c) = c ∧ s.inWait c = none ∧ c ≠ a then
      -- co_env.cpp:107-108
      some ({ s.upd c ((s.ctx c).setPriority (s.ctx a).prio) with inWait := fun d => if d = c then some (s.home c, (s.ctx c).prio) else s.inWait d },
        [.call c (s.ctx c).prio])
    else none
  | .leave c o =>
    match s.inWait c with
    | some (e, old) =>
      if s.cur (s.home c) = c then
        -- the deferred `current_ctx()->set_priority(old_priority)` of env `e`
        let s' := s.upd (s.cur e) ((s.ctx (s.cur e)).setPriority old)
        some ({ s' with inWait := fun d => if d = c then none else s.inWait d }, [.over c o (s'.ctx c).prio])
      else none
    | none => none

/-- Start: coroutines were constructed and perhaps given the idle flag. (Concerns co_env.cpp:80-185, co_ctx.cpp:50-119.) -/
def Start (s : State) : Prop := (∀ c, s.inWait c = none) ∧ ∀ c, 0 ≤ (s.ctx c).prio ∧ (s.ctx c).prio ≤ 99

/-- Proof device. (Concerns co_env.cpp:80-185, co_ctx.cpp:50-119.) -/
structure Inv (s : State) : Prop where
  range : ∀ c, 0 ≤ (s.ctx c).prio ∧ (s.ctx c).prio ≤ 99
  home : ∀ c e p, s.inWait c = some (e, p) → e = s.home c ∧ 0 ≤ p ∧ p ≤ 99
  idle : ∀ c e p, s.inWait c = some (e, p) → (s.ctx c).idle = true → (s.ctx c).prio = p

theorem set_range {c : Ctx} {p : Int} (h : 0 ≤ c.prio ∧ c.prio ≤ 99) : 0 ≤ (c.setPriority p).prio ∧ (c.setPriority p).prio ≤ 99 := by
  cases hi : c.idle with
  | true => simpa [Ctx.setPriority, hi] using h
  | false => rw [C47_set_priority c hi]; omega

theorem set_back {c : Ctx} {p : Int} (h : 0 ≤ p ∧ p ≤ 99) (hi : c.idle = true → c.prio = p) : (c.setPriority p).prio = p := by
  cases hi' : c.idle with
  | true => simpa [Ctx.setPriority, hi'] using hi hi'
  | false => rw [C47_set_priority c hi']; omega

theorem set_idle {c : Ctx} {p : Int} : (c.setPriority p).idle = c.idle := by
  unfold Ctx.setPriority; split <;> rfl

theorem set_idle_prio {c : Ctx} {p : Int} (h : c.idle = true) : (c.setPriority p) = c := by
  simp [Ctx.setPriority, h]

theorem inv_step {s s' : State} {a : Act} {es : List Ev} (h : Inv s) (hs : step false s a = some (s', es)) : Inv s' := by
  obtain ⟨h1, h2, h3⟩ := h
  have r := @set_range
  have i1 := @set_idle
  have i2 := @set_idle_prio
  cases a <;> simp only [step] at hs <;> repeat' split at hs
  all_goals first | (simp only [reduceCtorEq] at hs; done) | skip
  all_goals
    simp only [Option.some.injEq, Prod.mk.injEq] at hs
    obtain ⟨rfl, rfl⟩ := hs
    constructor <;> (try dsimp only [State.upd]) <;> grind

theorem inv_start {s : State} (h : Start s) : Inv s := by
  obtain ⟨h1, h2⟩ := h
  constructor
  · exact h2
  · intro c e p hp; rw [h1] at hp; cases hp
  · intro c e p hp; rw [h1] at hp; cases hp

theorem kept {c : Nat} {x : Nat × Int} : ∀ (as : List Act) (s s' : State) (es : List Ev), s.inWait c = some x →
    runs (step false) s as = some (s', es) → (∀ o p, Ev.over c o p ∉ es) → s'.inWait c = some x := by
  intro as
  induction as with
  | nil =>
    intro s s' es h1 h2 _
    simp only [runs, Option.some.injEq, Prod.mk.injEq] at h2
    rw [← h2.1]; exact h1
  | cons a as ih =>
    intro s s' es h1 h2 h3
    obtain ⟨u, e1, e2, k1, k2, rfl⟩ := runs_cons h2
    refine ih u s' e2 ?_ k2 (fun o p m => h3 o p (by simp [m]))
    have h3 : ∀ o p, Ev.over c o p ∉ e1 := fun o p m => h3 o p (by simp [m])
    cases a <;> simp only [step] at k1 <;> repeat' split at k1
    all_goals first | (simp only [reduceCtorEq] at k1; done) | skip
    all_goals
      simp only [Option.some.injEq, Prod.mk.injEq] at k1
      obtain ⟨rfl, rfl⟩ := k1
      (try dsimp only [State.upd]) <;> grind

/-- C52: when a coroutine leaves `wait_ctx`, by a value, an exception or `nullopt`, its priority is the one it had when it called it,
whatever happened in between. Coroutines stay on their env during the wait: that is the case in the code, because the functions that
move coroutines never get to do so (C56); `C52_moved` shows what would happen otherwise. -/
theorem C52_priority_restored {s0 s : State} (h0 : Start s0) {as : List Act} {pre mid post : List Ev} {c : Nat} {p q : Int} {o : Out}
    (h : runs (step false) s0 as = some (s, pre ++ .call c p :: mid ++ .over c o q :: post))
    (hmid : ∀ o' p', Ev.over c o' p' ∉ mid) : q = p := by
  obtain ⟨as1, act, as2, s1, s2, p1, p2, q1, q2, rfl, h1, h2, h3, hpre, rfl⟩ := runs_split _ _ _ _ _ _ h
  have hi := runs_inv (step := step false) Inv (fun s a s' es hI hs => inv_step hI hs) as1 s0 s1 p1 (inv_start h0) h1
  have key : p2 = [] ∧ ∃ e old, s1.inWait c = some (e, old) ∧ s1.cur (s1.home c) = c ∧
      q = ((s1.upd (s1.cur e) ((s1.ctx (s1.cur e)).setPriority old)).ctx c).prio := by
    cases act <;> simp only [step] at h2 <;> repeat' split at h2
    all_goals first | (simp only [reduceCtorEq] at h2; done) | skip
    all_goals
      simp only [Option.some.injEq, Prod.mk.injEq] at h2
      obtain ⟨-, h2⟩ := h2
      have hm : Ev.over c o q ∈ p2 ++ Ev.over c o q :: q1 := by simp
      rw [← h2] at hm
      simp at hm
    obtain ⟨rfl, rfl, rfl⟩ := hm
    refine ⟨?_, _, _, ‹_›, ‹_›, rfl⟩
    cases p2 with
    | nil => rfl
    | cons => simp at h2
  obtain ⟨rfl, e, old, k1, k2, rfl⟩ := key
  rw [List.append_nil] at hpre
  subst hpre
  obtain ⟨bs1, b, bs2, u1, u2, r1, r2, t1, t2, rfl, g1, g2, g3, rfl, rfl⟩ := runs_split _ _ _ _ _ _ h1
  have key2 : ∃ e, u2.inWait c = some (e, p) := by
    cases b <;> simp only [step] at g2 <;> repeat' split at g2
    all_goals first | (simp only [reduceCtorEq] at g2; done) | skip
    all_goals
      simp only [Option.some.injEq, Prod.mk.injEq] at g2
      obtain ⟨rfl, g2⟩ := g2
      have hm : Ev.call c p ∈ r2 ++ Ev.call c p :: t1 := by simp
      rw [← g2] at hm
      simp at hm
    obtain ⟨rfl, rfl⟩ := hm
    exact ⟨_, by simp; rfl⟩
  obtain ⟨e', key2⟩ := key2
  have := kept bs2 u2 s1 t2 key2 g3 (fun o' p' m => hmid o' p' (by simp [m]))
  rw [k1] at this
  cases this
  obtain ⟨rfl, hr⟩ := hi.home c _ _ k1
  simp only [State.upd, k2, if_true]
  exact set_back hr (hi.idle c _ _ k1)

/-- Concrete case: coroutine 1 of priority 10 waits for coroutine 2 of priority 70; meanwhile its priority is 70 and someone sets it to 5;
it leaves by an exception with priority 10. -/
example : (runs (step false) ⟨fun c => if c = 1 then ⟨10, false⟩ else ⟨70, false⟩, fun _ => 0, fun _ => 1, fun _ => none⟩
    [.wait 1 2, .switch 0 2, .setPriority 1 5, .switch 0 1, .leave 1 .rethrow]).map (·.2) =
    some [.call 1 10, .over 1 .rethrow 10] := by decide

/-- C52 would be false if coroutines were moved while they wait: `this` is the env on which the wait began, so the priority of another
coroutine is changed, and the waiter keeps the priority of the one it waited for. -/
theorem C52_moved : (runs (step true) ⟨fun c => if c = 1 then ⟨10, false⟩ else ⟨70, false⟩, fun _ => 0, fun _ => 1, fun _ => none⟩
    [.wait 1 2, .switch 0 3, .move 1 5, .switch 5 1, .leave 1 .value]).map (fun p => ((p.1.ctx 3).prio, p.2)) =
    some (10, [.call 1 10, .over 1 .value 70]) := by decide

end Verif.Priority
