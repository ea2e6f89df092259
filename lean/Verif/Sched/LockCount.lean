import Verif.Base.Lts

/-! # The schedule lock of an env and its counter: preemption and work moving (C56, C57, C58)

`co_recursive_mutex_with_count` (include/cocpp/core/co_env.h:22-38, source/cocpp/core/co_env.cpp:770-811) is a recursive
mutex with a counter of the threads and guards that are inside. The switch signal preempts only if the counter is zero, and
the monitor moves coroutines only if it is zero. One env is modelled: the coroutines on its thread, any number of other
threads that take its lock, the monitor's two functions and the signal. -/

namespace Verif.LockCount

/-- Who made an increment of the counter that is still to be undone: code of coroutine `c` on the env's thread, another
thread, or the monitor. Only for the proofs: the code has the counter alone. (Concerns co_env.cpp:296-833.) -/
inductive Who
  | ctx (c : Nat)
  | other (t : Nat)
  | monitor
deriving DecidableEq, Repr

/-- One env. `count` is `count__`. `owed`: the increments not yet undone. `depth`: how often the env's thread has locked the
mutex. `owner`: the other thread that has locked it. `cur`: the coroutine that runs on the env's thread. `done`: the
coroutines that have finished. (co_env.h:22-38, co_env.cpp:770-833.) -/
structure State where
  count : Int
  owed : List Who
  depth : Nat
  owner : Option Who
  cur : Nat
  done : List Nat

/-- Events. `enter`/`exit`: coroutine `c` enters or leaves a guarded section. `fin`: `c` has finished
and `d` runs. `pause`/`resume`:
`CoEnablePreempt`/`CoDisablePreempt` inside a section. `switched`: `c` yielded to `d`. `preempted`: the signal took the thread away from `c`.
`ignored`: the signal did nothing. `moved`: the monitor takes coroutines from this env. `kept`: it does not. (Concerns co_env.cpp:296-833.) -/
inductive Ev
  | enter (c : Nat)
  | exit (c : Nat)
  | pause (c : Nat)
  | resume (c : Nat)
  | fin (c d : Nat)
  | switched (c d : Nat)
  | preempted (c d : Nat)
  | ignored
  | moved
  | kept
deriving DecidableEq, Repr

/-- Choices. (Concerns co_env.cpp:296-833.) -/
inductive Act
  | guard
  | unguard
  | lock
  | unlock
  | pause
  | resume
  | yield (d : Nat)
  | finish (d : Nat)
  | signal (d : Nat)
  | otherInc (t : Nat)
  | otherLock (t : Nat)
  | otherUnlock (t : Nat)
  | otherDec (t : Nat)
  | monTry
  | monTest
  | monUnlock
deriving DecidableEq, Repr

/-- A new env: the idle coroutine, number 0, runs. (Concerns co_env.cpp:296-833.) -/
def State.init : State := ⟨0, [], 0, none, 0, []⟩

/-- One step. Code on the env's thread runs one coroutine at a time.
- `guard`/`unguard`: `CoPreemptGuard` (co_env.cpp:824-833). The discipline of C++ scopes is built in: a coroutine leaves
  only sections it is in.
- `lock`/`unlock`: `CoScheduleGuard` or `lock_schedule` (770-782, 813-822); the order of the two operations matters only to
  other threads.
- `pause`/`resume`: `CoEnablePreempt`/`CoDisablePreempt` (co_define.h:128-129), used inside a guarded section around a
  yield (for example include/cocpp/sync/co_mutex.h). A `pause` undoes an increment of the coroutine, `resume` makes one.
- `yield d`: `schedule_switch` to `d` (co_env.cpp:311-329, 296-309): it locks, and unlocks before the switch; `d` locks when
  it resumes and unlocks when it returns: nothing remains. One step here; what a signal does in the middle is C76.
  The mutex must not be owned by another thread.
- `finish d`: the end of `real_entry` (co_ctx.cpp:75-83): a `CoPreemptGuard`, then `schedule_switch`, which never returns, so
  the guard's destructor is never executed.
- `signal d`: `switch_from_outside` (co_vos_gcc_x86_64.cpp:142-165), `d` is what `prepare_to_switch` chooses.
- `otherInc`…: `lock()`/`unlock()` by another thread (`set_state`, `wake_up`).
- `monTry`, `monTest`, `monUnlock`: `redistribute_ctx__` and `steal_ctx_routine__` (co_manager.cpp:282-292, 457-465,
  472-480): `try_lock_schedule`, then `can_force_schedule`, then `unlock_schedule`. -/
def step (s : State) : Act → Option (State × List Ev)
  | .guard => if s.cur ∈ s.done then none else
      some ({ s with count := s.count + 1, owed := .ctx s.cur :: s.owed }, [.enter s.cur])
  | .unguard => if s.cur ∈ s.done ∨ .ctx s.cur ∉ s.owed then none else
      some ({ s with count := s.count - 1, owed := s.owed.erase (.ctx s.cur) }, [.exit s.cur])
  | .lock => if s.cur ∈ s.done ∨ s.owner ≠ none then none else
      some ({ s with count := s.count + 1, owed := .ctx s.cur :: s.owed, depth := s.depth + 1 }, [.enter s.cur])
  | .unlock => if s.cur ∈ s.done ∨ .ctx s.cur ∉ s.owed ∨ s.depth = 0 then none else
      some ({ s with count := s.count - 1, owed := s.owed.erase (.ctx s.cur), depth := s.depth - 1 }, [.exit s.cur])
  | .pause => if s.cur ∈ s.done ∨ .ctx s.cur ∉ s.owed then none else
      some ({ s with count := s.count - 1, owed := s.owed.erase (.ctx s.cur) }, [.pause s.cur])
  | .resume => if s.cur ∈ s.done then none else
      some ({ s with count := s.count + 1, owed := .ctx s.cur :: s.owed }, [.resume s.cur])
  | .yield d => if s.cur ∈ s.done ∨ d ∈ s.done ∨ s.owner ≠ none then none else
      some ({ s with cur := d }, [.switched s.cur d])
  | .finish d => if s.cur ∈ s.done ∨ s.cur = 0 ∨ d ∈ s.done ∨ d = s.cur ∨ s.owner ≠ none then none else
      some ({ s with count := s.count + 1, owed := .ctx s.cur :: s.owed, done := s.cur :: s.done, cur := d }, [.fin s.cur d])
  | .signal d => if d ∈ s.done then none else
      if s.count ≠ 0 then some (s, [.ignored]) else
      if s.owner ≠ none then some (s, [.ignored]) else
      some ({ s with cur := d }, [.preempted s.cur d])
  | .otherInc t => some ({ s with count := s.count + 1, owed := .other t :: s.owed }, [])
  | .otherLock t => if s.owner = none ∧ s.depth = 0 ∧ .other t ∈ s.owed then some ({ s with owner := some (.other t) }, []) else none
  | .otherUnlock t => if s.owner = some (.other t) then some ({ s with owner := none }, []) else none
  | .otherDec t => if .other t ∈ s.owed ∧ s.owner ≠ some (.other t) then
      some ({ s with count := s.count - 1, owed := s.owed.erase (.other t) }, []) else none
  | .monTry =>
      if s.owner = some .monitor then none
      else if s.owner = none ∧ s.depth = 0 then
        some ({ s with count := s.count + 1, owed := .monitor :: s.owed, owner := some .monitor }, [])
      else some (s, [.kept])
  | .monTest => if s.owner = some .monitor then some (s, if s.count = 0 then [.moved] else [.kept]) else none
  | .monUnlock => if s.owner = some .monitor then
      some ({ s with owner := none, count := s.count - 1, owed := s.owed.erase .monitor }, []) else none

/-- The counter counts the increments that are still to be undone; the monitor holds the mutex only between its
increment and its decrement; a finished coroutine has one increment left that nobody will undo. (Concerns co_env.cpp:296-833.) -/
structure Inv (s : State) : Prop where
  count : s.count = s.owed.length
  mon : s.owner = some .monitor → Who.monitor ∈ s.owed
  fin : ∀ c ∈ s.done, Who.ctx c ∈ s.owed
  cur : s.cur ∉ s.done

theorem inv_init : Inv State.init := by constructor <;> simp [State.init]

local macro "crunch" hs:ident : tactic => `(tactic| (
  simp only [step] at $hs:ident
  repeat' split at $hs:ident
  all_goals first | (simp only [reduceCtorEq] at $hs:ident; done) | skip
  all_goals simp only [Option.some.injEq, Prod.mk.injEq] at $hs:ident
  all_goals (have e1 := And.left $hs:ident; have e2 := And.right $hs:ident; clear $hs:ident; subst e1; subst e2)))

theorem len_erase {l : List Who} {w : Who} (h : w ∈ l) : ((l.erase w).length : Int) = (l.length : Int) - 1 := by
  rw [List.length_erase_of_mem h]
  have := List.length_pos_of_mem h
  omega

theorem mem_erase {l : List Who} {v w : Who} (h : v ≠ w) : v ∈ l.erase w ↔ v ∈ l := List.mem_erase_of_ne h

attribute [local grind =] len_erase mem_erase

theorem inv_step {s s' : State} {a : Act} {es : List Ev} (h : Inv s) (hs : step s a = some (s', es)) : Inv s' := by
  obtain ⟨h1, h2, h3, h4⟩ := h
  cases a <;> crunch hs <;> constructor <;> (try dsimp only) <;> grind

theorem inv_runs {as : List Act} {s : State} {tr : List Ev} (h : runs step State.init as = some (s, tr)) : Inv s :=
  runs_inv Inv (fun _ _ _ _ h hs => inv_step h hs) as _ _ _ inv_init h

theorem count_pos {s : State} {w : Who} (h : Inv s) (hw : w ∈ s.owed) : s.count ≠ 0 := by
  have := List.length_pos_of_mem hw
  have := h.count
  omega

/-! ## C56 -/

/-- **C56, negation.** In no execution does the monitor move a coroutine away from an env: between its `try_lock_schedule` and
its test it is counted itself, so the counter is never zero. Blocked threads keep their coroutines, and idle threads steal
nothing. -/
theorem C56_never_moved (as : List Act) (s : State) (tr : List Ev) (h : runs step State.init as = some (s, tr)) :
    Ev.moved ∉ tr := by
  have := runs_hist (step := step) (fun s tr => Inv s ∧ Ev.moved ∉ tr)
    (by
      intro s a s' es tr hI hs
      refine ⟨inv_step hI.1 hs, ?_⟩
      have hc := fun w hw => count_pos (w := w) hI.1 hw
      have hm := hI.1.mon
      have hn := hI.2
      cases a <;> crunch hs <;> grind)
    as State.init s tr [] ⟨inv_init, by simp⟩ h
  simpa using this.2

/-- The env's thread is stuck in coroutine 1, nobody else is inside the lock: the monitor locks it, and leaves. -/
example : (runs step State.init [.yield 1, .monTry, .monTest, .monUnlock]).map (·.2) = some [.switched 0 1, .kept] := by
  decide

/-! ## C57 -/

/-- The sections coroutine `c` is inside after the trace, according to what it did: entered and not left, not counting those
in which it has enabled preemption again. (Concerns co_env.cpp:296-833.) -/
def Inside (c : Nat) (tr : List Ev) : Prop :=
  tr.count (.exit c) + tr.count (.pause c) < tr.count (.enter c) + tr.count (.resume c)

/-- Increments of a coroutine that has not finished are its open sections. (Concerns co_env.cpp:296-833.) -/
structure Bal (s : State) (tr : List Ev) : Prop where
  inv : Inv s
  bal : ∀ c, c ∉ s.done → s.owed.count (.ctx c) + tr.count (.exit c) + tr.count (.pause c) =
    tr.count (.enter c) + tr.count (.resume c)
  fin : ∀ c, c ∈ s.done → ∃ d, Ev.fin c d ∈ tr
  fin' : ∀ c d, Ev.fin c d ∈ tr → c ∈ s.done

theorem bal_step {s s' : State} {a : Act} {es tr : List Ev} (h : Bal s tr) (hs : step s a = some (s', es)) :
    Bal s' (tr ++ es) := by
  have hi := inv_step h.inv hs
  have hcur := h.inv.cur
  obtain ⟨-, h1, h2, h3⟩ := h
  have key : ∀ c, c ∉ s'.done → s'.owed.count (.ctx c) + es.count (.exit c) + es.count (.pause c) =
      s.owed.count (.ctx c) + es.count (.enter c) + es.count (.resume c) := by
    intro c hc
    have hp : ∀ w, w ∈ s.owed → 0 < s.owed.count w := fun w => List.count_pos_iff.mpr
    cases a <;> crunch hs <;> (try dsimp only at hc ⊢) <;>
      (try simp only [List.count_cons, List.count_nil, List.count_erase]) <;> grind
  have sub : ∀ c, c ∉ s'.done → c ∉ s.done := by
    intro c
    cases a <;> crunch hs <;> grind
  refine ⟨hi, fun c hc => ?_, ?_, ?_⟩
  · have k1 := key c hc
    have k2 := h1 c (sub c hc)
    simp only [List.count_append]
    omega
  · intro c hc
    by_cases hd : c ∈ s.done
    · obtain ⟨d, hd⟩ := h2 c hd; exact ⟨d, by simp [hd]⟩
    · cases a <;> crunch hs <;> first | exact absurd hc hd | skip
      simp only [List.mem_cons, hd, or_false] at hc
      subst hc
      exact ⟨_, List.mem_append_right _ (List.mem_singleton.mpr rfl)⟩
  · intro c d
    have := h3 c d
    cases a <;> crunch hs <;> grind

theorem bal_runs {as : List Act} {s : State} {tr : List Ev} (h : runs step State.init as = some (s, tr)) : Bal s tr := by
  have := runs_hist Bal (fun s a s' es tr h hs => bal_step h hs) as State.init s tr []
    ⟨inv_init, by simp [State.init], by simp [State.init], by simp⟩ h
  simpa using this

/-- **C57, first half.** While some coroutine of the thread is inside a guarded section, the signal does nothing. -/
theorem C57_disabled_inside {as : List Act} {s s' : State} {tr es : List Ev} {c d : Nat}
    (h : runs step State.init as = some (s, tr)) (hc : Inside c tr) (hf : ∀ x, Ev.fin c x ∉ tr)
    (hs : step s (.signal d) = some (s', es)) : s' = s ∧ es = [.ignored] := by
  have hB := bal_runs h
  have hd : c ∉ s.done := fun hd => by obtain ⟨x, hx⟩ := hB.fin c hd; exact hf x hx
  have hb := hB.bal c hd
  have hw : Who.ctx c ∈ s.owed := List.count_pos_iff.mp (by unfold Inside at hc; omega)
  have := count_pos hB.inv hw
  simp only [step, this, ne_eq, not_false_eq_true, if_true] at hs
  split at hs
  · simp at hs
  · simpa [eq_comm] using hs

/-- **C57, the part of the second half that holds.** As long as no coroutine has finished on the thread, preemption is enabled
whenever no coroutine is inside a section and no other thread is using the lock. -/
theorem C57_enabled_outside_partial {as : List Act} {s : State} {tr : List Ev} (h : runs step State.init as = some (s, tr))
    (hf : ∀ c x, Ev.fin c x ∉ tr) (ho : ∀ w ∈ s.owed, ∃ c, w = .ctx c) :
    s.count = 0 ↔ ∀ c, ¬ Inside c tr := by
  have hB := bal_runs h
  have hd : ∀ c, c ∉ s.done := fun c hd => by obtain ⟨x, hx⟩ := hB.fin c hd; exact hf c x hx
  constructor
  · intro h0 c hc
    have hb := hB.bal c (hd c)
    have hw : Who.ctx c ∈ s.owed := List.count_pos_iff.mp (by unfold Inside at hc; omega)
    exact count_pos hB.inv hw h0
  · intro hn
    have : s.owed = [] := by
      cases hw : s.owed with
      | nil => rfl
      | cons w ws =>
        exfalso
        obtain ⟨c, rfl⟩ := ho w (by simp [hw])
        have hb := hB.bal c (hd c)
        have hp : 0 < s.owed.count (.ctx c) := List.count_pos_iff.mpr (by simp [hw])
        apply hn c
        unfold Inside
        omega
    rw [hB.inv.count, this]; rfl

/-- Nested sections of two coroutines, all left again: the signal preempts. -/
example : (runs step State.init [.yield 1, .guard, .lock, .unlock, .pause, .yield 2, .guard, .unguard, .yield 1, .resume,
    .unguard, .signal 2]).map (fun p => (p.2.getLast?, p.1.count)) = some (some (.preempted 1 2), 0) := by decide

theorem fin_forever {c : Nat} (as : List Act) (s s' : State) (tr : List Ev) (hI : Inv s) (hc : c ∈ s.done)
    (h : runs step s as = some (s', tr)) : s'.count ≠ 0 ∧ ∀ x d, Ev.preempted x d ∉ tr := by
  have := runs_hist (step := step) (fun s tr => Inv s ∧ c ∈ s.done ∧ ∀ x d, Ev.preempted x d ∉ tr)
    (by
      intro s a s' es tr hI hs
      obtain ⟨h1, h2, h3⟩ := hI
      have hp := count_pos h1 (h1.fin c h2)
      refine ⟨inv_step h1 hs, ?_, ?_⟩
      · cases a <;> crunch hs <;> grind
      · intro x d
        have := h3 x d
        cases a <;> crunch hs <;> grind)
    as s s' tr [] ⟨hI, hc, by simp⟩ h
  obtain ⟨h1, h2, h3⟩ := this
  exact ⟨count_pos h1 (h1.fin c h2), by simpa using h3⟩

/-- **C57, negation.** Once a coroutine has finished on a thread, preemption of the thread is never enabled again, whatever
sections are left: the guard at the end of `real_entry` is never undone. -/
theorem C57_never_enabled_again {as bs : List Act} {s s' : State} {tr tr' : List Ev} {c d : Nat}
    (h : runs step State.init as = some (s, tr)) (hc : Ev.fin c d ∈ tr) (h' : runs step s bs = some (s', tr')) :
    s'.count ≠ 0 :=
  (fin_forever bs s s' tr' (inv_runs h) ((bal_runs h).fin' c d hc) h').1

/-! ## C58 -/

/-- **C58, the part that holds.** If no coroutine has finished on the thread, none of its coroutines (the one that runs and
those that are blocked) is inside a section and no other thread uses the lock, the monitor's signal (C62) takes the
thread away from the running coroutine. -/
theorem C58_preempted_partial {as : List Act} {s : State} {tr : List Ev} {d : Nat}
    (h : runs step State.init as = some (s, tr)) (hf : ∀ c x, Ev.fin c x ∉ tr) (hn : ∀ c, ¬ Inside c tr)
    (ho : ∀ w ∈ s.owed, ∃ c, w = .ctx c) (hm : s.owner = none) :
    step s (.signal d) = some ({ s with cur := d }, [.preempted s.cur d]) := by
  have h0 := (C57_enabled_outside_partial h hf ho).mpr hn
  have hB := bal_runs h
  have hd : d ∉ s.done := fun hd => by obtain ⟨x, hx⟩ := hB.fin d hd; exact hf d x hx
  simp [step, h0, hm, hd]

/-- **C58, negation: a coroutine has finished.** From then on no coroutine of the thread is ever preempted. -/
theorem C58_not_after_finish {as bs : List Act} {s s' : State} {tr tr' : List Ev} {c d : Nat}
    (h : runs step State.init as = some (s, tr)) (hc : Ev.fin c d ∈ tr) (h' : runs step s bs = some (s', tr')) (x y : Nat) :
    Ev.preempted x y ∉ tr' :=
  (fin_forever bs s s' tr' (inv_runs h) ((bal_runs h).fin' c d hc) h').2 x y

/-- **C58, negation: a coroutine is blocked inside a section.** `co_condition_variable::wait` keeps its `CoPreemptGuard` while it
waits (co_condition_variable.h:56, 72). Until that coroutine runs again, no coroutine of the thread is preempted. -/
theorem C58_not_while_parked {as bs : List Act} {s s' : State} {tr tr' : List Ev} {c : Nat}
    (h : runs step State.init as = some (s, tr)) (hc : Inside c tr) (hf : ∀ x, Ev.fin c x ∉ tr) (hp : s.cur ≠ c)
    (h' : runs step s bs = some (s', tr')) (hr : ∀ x, Ev.switched x c ∉ tr' ∧ Ev.fin x c ∉ tr') (x y : Nat) :
    Ev.preempted x y ∉ tr' := by
  have hB := bal_runs h
  have hd : c ∉ s.done := fun hd => by obtain ⟨x, hx⟩ := hB.fin c hd; exact hf x hx
  have hb := hB.bal c hd
  have hw : Who.ctx c ∈ s.owed := List.count_pos_iff.mp (by unfold Inside at hc; omega)
  have := runs_hist (step := step) (fun s tr => Inv s ∧ ((∀ x, Ev.switched x c ∉ tr ∧ Ev.fin x c ∉ tr) →
      Who.ctx c ∈ s.owed ∧ s.cur ≠ c ∧ ∀ x y, Ev.preempted x y ∉ tr))
    (by
      intro s a s' es tr hI hs
      obtain ⟨h1, h2⟩ := hI
      refine ⟨inv_step h1 hs, fun hr => ?_⟩
      have hr1 : ∀ x, Ev.switched x c ∉ tr ∧ Ev.fin x c ∉ tr := fun x => by
        have := hr x; simp only [List.mem_append, not_or] at this; exact ⟨this.1.1, this.2.1⟩
      have hr2 : ∀ x, Ev.switched x c ∉ es ∧ Ev.fin x c ∉ es := fun x => by
        have := hr x; simp only [List.mem_append, not_or] at this; exact ⟨this.1.2, this.2.2⟩
      obtain ⟨k1, k2, k3⟩ := h2 hr1
      have hp := count_pos h1 k1
      refine ⟨?_, ?_, ?_⟩
      · cases a <;> crunch hs <;> grind
      · cases a <;> crunch hs <;> grind
      · intro x y
        have := k3 x y
        cases a <;> crunch hs <;> grind)
    bs s s' tr' [] ⟨inv_runs h, fun _ => ⟨hw, hp, by simp⟩⟩ h'
  simpa using (this.2 (by simpa using hr)).2.2 x y

/-- Coroutine 1 waits on a condition variable, coroutine 2 spins: the signals are ignored. After coroutine 3 has ended, coroutine
2 is not preempted either. -/
example : (runs step State.init [.yield 1, .guard, .yield 2, .signal 3, .signal 3]).map (·.2) =
      some [.switched 0 1, .enter 1, .switched 1 2, .ignored, .ignored] ∧
    (runs step State.init [.yield 3, .finish 2, .signal 1]).map (·.2) = some [.switched 0 3, .fin 3 2, .ignored] := by decide

end Verif.LockCount
