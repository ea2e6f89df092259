import Verif.Machine.SwitchProps
import Verif.Base.Lts

/-! # C76: preemption by the switch signal

A preempted coroutine's registers are in the `sigcontext` the kernel put on its stack (below the 128 bytes of the red zone);
the handler copies them to the coroutine's save area and copies the next coroutine's save area over the `sigcontext`, so
that the return from the handler continues the next coroutine (co_vos_gcc_x86_64.cpp:128-165,
source/cocpp/exception/co_exception.cpp:129-150). The save area has the layout of `sigcontext_64`. -/

namespace Verif.Machine

/-- The save area `a` holds the interrupted state `s` (`save_context_to_ctx`, co_vos_gcc_x86_64.cpp:128-135). -/
structure Holds (m : Mem) (a : Word) (s : M) : Prop where
  regs : ∀ r, field m a (offOf r) = s.reg r
  rip : field m a 128 = s.rip
  flags : field m a 136 = s.flags

/-- `restore_context_from_ctx` (co_vos_gcc_x86_64.cpp:137-140) followed by the return from the signal handler: all registers
come from the area, memory is not written. `fp`: the floating point state found through the `fpstate` pointer of the
restored context. Simplified: the kernel's handling of the pointer is not modelled. -/
def sigLoad (m : Mem) (a : Word) (fp : Nat) : M where
  reg := fun r => field m a (offOf r)
  flags := field m a 136
  rip := field m a 128
  fp := fp
  mem := m

/-- `save_context_to_ctx`: the eighteen words are stored. (Concerns co_vos_gcc_x86_64.cpp:128-165, co_env.cpp:296-309.) -/
def sigSave (m : Mem) (a : Word) (s : M) : Mem :=
  let m := write64 m (a + BitVec.ofNat 64 0) (s.reg .r8)
  let m := write64 m (a + BitVec.ofNat 64 8) (s.reg .r9)
  let m := write64 m (a + BitVec.ofNat 64 16) (s.reg .r10)
  let m := write64 m (a + BitVec.ofNat 64 24) (s.reg .r11)
  let m := write64 m (a + BitVec.ofNat 64 32) (s.reg .r12)
  let m := write64 m (a + BitVec.ofNat 64 40) (s.reg .r13)
  let m := write64 m (a + BitVec.ofNat 64 48) (s.reg .r14)
  let m := write64 m (a + BitVec.ofNat 64 56) (s.reg .r15)
  let m := write64 m (a + BitVec.ofNat 64 64) (s.reg .rdi)
  let m := write64 m (a + BitVec.ofNat 64 72) (s.reg .rsi)
  let m := write64 m (a + BitVec.ofNat 64 80) (s.reg .rbp)
  let m := write64 m (a + BitVec.ofNat 64 88) (s.reg .rbx)
  let m := write64 m (a + BitVec.ofNat 64 96) (s.reg .rdx)
  let m := write64 m (a + BitVec.ofNat 64 104) (s.reg .rax)
  let m := write64 m (a + BitVec.ofNat 64 112) (s.reg .rcx)
  let m := write64 m (a + BitVec.ofNat 64 120) (s.reg .rsp)
  let m := write64 m (a + BitVec.ofNat 64 128) s.rip
  write64 m (a + BitVec.ofNat 64 136) s.flags

theorem sigSave_holds (m : Mem) (a : Word) (s : M) : Holds (sigSave m a s) a s := by
  have D : ∀ (m : Mem) v i j, i < 4096 → j < 4096 → (i + 8 ≤ j ∨ j + 8 ≤ i) →
      read64 (write64 m (a + BitVec.ofNat 64 j) v) (a + BitVec.ofNat 64 i) =
        read64 m (a + BitVec.ofNat 64 i) := fun m v i j => read_field m _ v i j
  refine ⟨?_, ?_, ?_⟩
  · intro r
    cases r <;>
      simp only [sigSave, field, offOf, read_write, D, Nat.reduceAdd, Nat.reduceLeDiff, Nat.reduceLT, true_or]
  · simp only [sigSave, field, read_write, D, Nat.reduceAdd, Nat.reduceLeDiff, Nat.reduceLT, true_or]
  · simp only [sigSave, field, read_write]

/-- **C76, the part that holds.** A preempted coroutine continued by another signal has every general purpose register, the
stack pointer, the flags and the instruction pointer back, and the memory, red zone included, is not written. -/
theorem C76_resume_by_signal_partial (m : Mem) (a : Word) (s : M) (fp : Nat) (h : Holds m a s) :
    let e := sigLoad m a fp
    (∀ r, e.reg r = s.reg r) ∧ e.rip = s.rip ∧ e.flags = s.flags ∧ ∀ x, e.mem x = m x :=
  ⟨h.regs, h.rip, h.flags, fun _ => rfl⟩

/-- **C76, the part that holds.** Continued by `switch_to` (another coroutine yields), the general purpose registers, the
stack pointer, the flags and the instruction pointer are back as well. -/
theorem C76_resume_by_switch_partial (s s2 : M) (h : Holds (savedMem s2) (s2.reg .rsi) s) (hl : Layout s2) :
    let e := s2.run switchTo
    (∀ r, e.reg r = s.reg r) ∧ e.rip = s.rip ∧ e.flags = s.flags := by
  obtain ⟨r1, r2, r3, r4, r5, r6⟩ := run_switch s2 hl
  refine ⟨fun r => ?_, r3.trans h.rip, r4.trans h.flags⟩
  by_cases hr : r = .rsp
  · subst hr; exact r2.trans (h.regs .rsp)
  · rw [r1 r hr]; exact h.regs r

/-- **C76, negation: the red zone.** A preempted coroutine continued by `switch_to` always finds its own instruction pointer
in the eight bytes below its stack pointer, whatever it kept there. -/
theorem C76_red_zone_overwritten (s s2 : M) (h : Holds (savedMem s2) (s2.reg .rsi) s) (hl : Layout s2) :
    read64 (s2.run switchTo).mem (s.reg .rsp - 8) = s.rip := by
  obtain ⟨r1, r2, r3, r4, r5, r6⟩ := run_switch s2 hl
  rw [r6, show field (savedMem s2) (s2.reg .rsi) 120 = s.reg .rsp from h.regs .rsp, read_write]
  exact h.rip

/-- **C76, negation: the vector registers.** A preempted coroutine continued by `switch_to` has the floating point and vector
registers of the coroutine that yielded, not its own. -/
theorem C76_vector_registers_lost (s2 : M) (hl : Layout s2) : (s2.run switchTo).fp = s2.fp :=
  (run_switch s2 hl).2.2.2.2.1

/-! A concrete preemption: a leaf function keeps 42 in its red zone and is interrupted; coroutine 2 then yields to it. -/

/-- Example machine state, no counterpart in the code. (Concerns co_vos_gcc_x86_64.cpp:128-165, co_env.cpp:296-309.) -/
def demoLeaf : M where
  reg := fun r => match r with | .rsp => 0x7000 | .rax => 17 | _ => 0
  flags := 0x202
  rip := 0x401234
  fp := 555
  mem := write64 (fun _ => 0) (0x7000 - 8) 42

/-- Coroutine 2 calls `switch_to` towards the interrupted coroutine (save area 0x1000). (Concerns co_vos_gcc_x86_64.cpp:128-165, co_env.cpp:296-309.) -/
def demoYield : M where
  reg := fun r => match r with | .rdi => 0x2000 | .rsi => 0x1000 | .rsp => 0x9000 | _ => 3
  flags := 0x246
  rip := 0
  fp := 7
  mem := sigSave demoLeaf.mem 0x1000 demoLeaf

/-- Before the switch the red zone still holds 42; afterwards the registers are right, but the 42 is gone and so is the
vector state. -/
theorem C76_witness :
    read64 demoYield.mem (demoLeaf.reg .rsp - 8) = 42 ∧ demoLeaf.fp = 555 ∧
    (demoYield.run switchTo).reg .rax = 17 ∧ (demoYield.run switchTo).rip = 0x401234 ∧
    read64 (demoYield.run switchTo).mem (demoLeaf.reg .rsp - 8) = 0x401234 ∧
    (demoYield.run switchTo).fp = 7 := by decide +kernel

/-- `Holds` is met by it. -/
example : Holds demoYield.mem 0x1000 demoLeaf := sigSave_holds _ _ _

/-! ## The unprotected window in `switch_normal_ctx__`

`switch_normal_ctx__` (co_env.cpp:296-309) makes the next coroutine current (`prepare_to_switch`), then releases the schedule
lock, and only then calls `switch_to`. A signal in between passes both checks of `switch_from_outside` (the count is zero
and the lock is free) and treats the *next* coroutine as the one it has interrupted. -/

namespace Window

/-- A suspended computation: whose frames it is, and the `switch_to` it was about to execute, if any. (Concerns co_vos_gcc_x86_64.cpp:128-165, co_env.cpp:296-309.) -/
structure Cont where
  owner : Nat
  pending : Option Nat
  deriving DecidableEq, Repr

/-- `cur`: `curr_ctx__`. `phys`: the computation the processor is executing. `slot c`: the computation in `c`'s save area. (co_env.cpp:296-309, co_vos_gcc_x86_64.cpp:128-165.) -/
structure State where
  cur : Nat
  phys : Cont
  slot : Nat → Cont

/-- Coroutine 0 runs, every other one is suspended in its own save area. (Concerns co_vos_gcc_x86_64.cpp:128-165, co_env.cpp:296-309.) -/
def State.init : State := ⟨0, ⟨0, none⟩, fun c => ⟨c, none⟩⟩

/-- What the two threads of execution do between the unlock and the switch (co_env.cpp:296-309). -/
inductive Act
  /-- `prepare_to_switch` choosing `n` and `unlock_schedule` (co_env.cpp:301-306). -/
  | prepare (n : Nat)
  /-- `switch_to` (co_env.cpp:307). -/
  | switch
  /-- The switch signal, `prepare_to_switch` choosing `n` (co_vos_gcc_x86_64.cpp:142-165). -/
  | signal (n : Nat)
  deriving DecidableEq, Repr

/-- The window of switch_normal_ctx__ (co_env.cpp:296-309) with a signal in it (co_vos_gcc_x86_64.cpp:142-165). -/
def step (s : State) : Act → Option State
  | .prepare n =>
    if s.phys.pending = none ∧ n ≠ s.cur then some { s with cur := n, phys := ⟨s.phys.owner, some n⟩ } else none
  | .switch =>
    match s.phys.pending with
    | none => none
    | some n => some { s with
        slot := upd s.slot s.phys.owner ⟨s.phys.owner, none⟩
        phys := upd s.slot s.phys.owner ⟨s.phys.owner, none⟩ n }
  | .signal n =>
    if n ≠ s.cur then some { cur := n, phys := upd s.slot s.cur s.phys n, slot := upd s.slot s.cur s.phys } else none

/-- Executions of the window model. (Concerns co_vos_gcc_x86_64.cpp:128-165, co_env.cpp:296-309.) -/
def run (s : State) : List Act → Option State
  | [] => some s
  | a :: as => (step s a).bind (fun s' => run s' as)

/-- A signal arrives outside the window only. (Concerns co_vos_gcc_x86_64.cpp:128-165, co_env.cpp:296-309.) -/
def calm (s : State) : List Act → Bool
  | [] => true
  | a :: as =>
    (match a with | .signal _ => s.phys.pending = none | _ => true) &&
      (match step s a with | some s' => calm s' as | none => true)

/-- Every coroutine that is not executing is in its own save area. (Concerns co_vos_gcc_x86_64.cpp:128-165, co_env.cpp:296-309.) -/
def Sane (s : State) : Prop :=
  (∀ c, c ≠ s.phys.owner → s.slot c = ⟨c, none⟩) ∧ (s.phys.pending = none → s.cur = s.phys.owner) ∧
    ∀ n, s.phys.pending = some n → s.cur = n ∧ n ≠ s.phys.owner

theorem sane_step {s s' : State} {a : Act} (h : Sane s) (hc : ∀ n, a = .signal n → s.phys.pending = none)
    (hs : step s a = some s') : Sane s' := by
  obtain ⟨h1, h2, h3⟩ := h
  cases a with
  | prepare n =>
    simp only [step] at hs
    split at hs
    · rename_i hp
      simp only [Option.some.injEq] at hs
      subst hs
      refine ⟨h1, fun h => by simp at h, fun m hm => ?_⟩
      simp only [Option.some.injEq] at hm
      subst hm
      exact ⟨rfl, by rw [← h2 hp.1]; exact hp.2⟩
    · simp at hs
  | switch =>
    simp only [step] at hs
    split at hs
    · simp at hs
    · rename_i n hn
      simp only [Option.some.injEq] at hs
      subst hs
      obtain ⟨h4, h5⟩ := h3 n hn
      have e : upd s.slot s.phys.owner ⟨s.phys.owner, none⟩ n = ⟨n, none⟩ := by
        simp [upd, h5, h1 n h5]
      refine ⟨?_, ?_, ?_⟩
      · intro c hc
        simp only [e] at hc ⊢
        by_cases ho : c = s.phys.owner
        · simp [upd, ho]
        · simp [upd, ho, h1 c ho]
      · intro _; simp [e, h4]
      · intro m hm; simp [e] at hm
  | signal n =>
    have hp := hc n rfl
    have hcur := h2 hp
    simp only [step] at hs
    split at hs
    · rename_i hn
      simp only [Option.some.injEq] at hs
      subst hs
      have hn' : n ≠ s.phys.owner := by rw [← hcur]; exact hn
      have e : upd s.slot s.cur s.phys n = ⟨n, none⟩ := by simp [upd, hn, h1 n hn']
      refine ⟨?_, ?_, ?_⟩
      · intro c hc
        simp only [e] at hc ⊢
        by_cases ho : c = s.cur
        · have : s.phys = ⟨s.phys.owner, none⟩ := by rw [← hp]
          simp only [upd, ho, if_true]
          rw [this, hcur]
        · simp [upd, ho, h1 c (by rw [← hcur]; exact ho)]
      · intro _; simp [e]
      · intro m hm; simp [e] at hm
    · simp at hs

/-- **C76, the part that holds.** As long as no signal hits the window, whenever no switch is in progress the executing frames
are those of the current coroutine and every other coroutine's own computation is in its save area. -/
theorem C76_contexts_intact_partial (as : List Act) (s : State) (hc : calm State.init as = true)
    (h : run State.init as = some s) :
    (∀ c, c ≠ s.phys.owner → s.slot c = ⟨c, none⟩) ∧ (s.phys.pending = none → s.phys.owner = s.cur) := by
  have key : ∀ (as : List Act) (s0 s : State), Sane s0 → calm s0 as = true → run s0 as = some s → Sane s := by
    intro as
    induction as with
    | nil => intro s0 s h _ hr; simp only [run, Option.some.injEq] at hr; subst hr; exact h
    | cons a as ih =>
      intro s0 s h hc hr
      simp only [run] at hr
      cases hs : step s0 a with
      | none => simp [hs] at hr
      | some s1 =>
        simp only [hs, Option.bind_some] at hr
        simp only [calm, hs, Bool.and_eq_true] at hc
        refine ih s1 s (sane_step h ?_ hs) hc.2 hr
        intro n hn
        subst hn
        simpa using hc.1
  have := key as State.init s ⟨fun c _ => rfl, fun _ => rfl, fun n hn => by simp [State.init] at hn⟩ hc h
  exact ⟨this.1, fun hp => (this.2.1 hp).symm⟩

/-- Coroutine `c` is lost: neither executing nor in any save area. (Concerns co_vos_gcc_x86_64.cpp:128-165, co_env.cpp:296-309.) -/
def Lost (c : Nat) (s : State) : Prop := s.phys.owner ≠ c ∧ ∀ d, (s.slot d).owner ≠ c

theorem lost_step {c : Nat} {s s' : State} {a : Act} (h : Lost c s) (hs : step s a = some s') : Lost c s' := by
  obtain ⟨h1, h2⟩ := h
  cases a with
  | prepare n =>
    simp only [step] at hs
    split at hs <;> simp at hs
    subst hs
    exact ⟨h1, h2⟩
  | switch =>
    simp only [step] at hs
    split at hs <;> simp at hs
    subst hs
    refine ⟨?_, ?_⟩
    · simp only [upd]; split
      · exact h1
      · exact h2 _
    · intro d; simp only [upd]; split
      · exact h1
      · exact h2 _
  | signal n =>
    simp only [step] at hs
    split at hs <;> simp at hs
    subst hs
    refine ⟨?_, ?_⟩
    · simp only [upd]; split
      · exact h1
      · exact h2 _
    · intro d; simp only [upd]; split
      · exact h1
      · exact h2 _

/-- **C76, negation: the window.** Coroutine 0 yields to 1 and the signal, switching to 2, arrives in the window: the registers
of coroutine 1 are overwritten by those of coroutine 0, and coroutine 1 never executes again. -/
theorem C76_window_witness : ∃ s, run State.init [.prepare 1, .signal 2] = some s ∧ s.slot 1 = ⟨0, some 1⟩ ∧
    ∀ as s', run s as = some s' → s'.phys.owner ≠ 1 := by
  refine ⟨_, rfl, rfl, ?_⟩
  have key : ∀ (as : List Act) (s s' : State), Lost 1 s → run s as = some s' → Lost 1 s' := by
    intro as
    induction as with
    | nil => intro s s' h hr; simp only [run, Option.some.injEq] at hr; subst hr; exact h
    | cons a as ih =>
      intro s s' h hr
      simp only [run] at hr
      cases hs : step s a with
      | none => simp [hs] at hr
      | some s1 =>
        simp only [hs, Option.bind_some] at hr
        exact ih s1 s' (lost_step h hs) hr
  intro as s' hr
  refine (key as _ s' ⟨by decide, ?_⟩ hr).1
  intro d
  simp only [upd, State.init]
  by_cases hd : d = 1 <;> simp [hd]

/-- Outside the window both kinds of switching can be mixed freely. -/
example : calm State.init [.signal 1, .prepare 2, .switch, .signal 0, .prepare 1, .switch] = true ∧
    (run State.init [.signal 1, .prepare 2, .switch, .signal 0, .prepare 1, .switch]).map (·.phys.owner) = some 1 := by decide

end Window

end Verif.Machine
