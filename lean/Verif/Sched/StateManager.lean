import Verif.Base.Lts

/-! # C48: `co_state_manager` (co_state_manager.h), the state of a coroutine and of an env

Any number of threads call `set_state` and `state()`; every line of these functions is a step of its own, the mutex is explicit. `T` is
`co_state` with final state `finished` (co_ctx.h:39) or `co_env_state` with final state `destroying` (co_env.h:64). No other code writes
`state__`. -/

namespace Verif.StateManager

/-- Where a thread is: outside; before the lock of `set_state(x)` (co_state_manager.h:25); before its test (:26); before its assignment
(:28); before the unlock (:30); before the lock of `state()` (:36); before its read (:37); before the unlock. -/
inductive Pc (T : Type)
  | out
  | setLock (x : T)
  | setTest (x : T)
  | setWrite (x : T)
  | setUnlock
  | getLock
  | getRead
  | getUnlock (x : T)

/-- `state__`, the owner of `mu_state__`, the threads (co_state_manager.h:13-14). -/
structure State (T : Type) where
  st : T
  owner : Option Nat
  pc : Nat → Pc T

/-- Events: `state()` returned `x`; `set_state(x)` was called. (Concerns co_state_manager.h:13-38.) -/
inductive Ev (T : Type)
  | seen (i : Nat) (x : T)
  | set (i : Nat) (x : T)

/-- Choices. (Concerns co_state_manager.h:13-38.) -/
inductive Act (T : Type)
  | callSet (i : Nat) (x : T)
  | callGet (i : Nat)
  | go (i : Nat)

/-- Construction (co_state_manager.h:14). -/
def State.init {T : Type} (x : T) : State T := ⟨x, none, fun _ => .out⟩

/-- Thread `i` is now at `p`. (Concerns co_state_manager.h:13-38.) -/
def State.at {T : Type} (s : State T) (i : Nat) (p : Pc T) : State T := { s with pc := fun j => if j = i then p else s.pc j }

/-- One step of thread `i` (co_state_manager.h:22-38). The mutex is recursive, but these functions do not nest. -/
def step {T : Type} [DecidableEq T] (final : T) (s : State T) : Act T → Option (State T × List (Ev T))
  | .callSet i x => match s.pc i with
    | .out => some (s.at i (.setLock x), [.set i x])
    | _ => none
  | .callGet i => match s.pc i with
    | .out => some (s.at i .getLock, [])
    | _ => none
  | .go i => match s.pc i with
    | .out => none
    | .setLock x => if s.owner = none then some ({ s.at i (.setTest x) with owner := some i }, []) else none
    | .setTest x => if s.st ≠ final then some (s.at i (.setWrite x), []) else some (s.at i .setUnlock, [])
    | .setWrite x => some ({ s.at i .setUnlock with st := x }, [])
    | .setUnlock => some ({ s.at i .out with owner := none }, [])
    | .getLock => if s.owner = none then some ({ s.at i .getRead with owner := some i }, []) else none
    | .getRead => some (s.at i (.getUnlock s.st), [])
    | .getUnlock x => some ({ s.at i .out with owner := none }, [.seen i x])

/-- Proof device. (Concerns co_state_manager.h:13-38.) -/
def Pc.inside {T : Type} : Pc T → Bool
  | .out => false
  | .setLock _ => false
  | .getLock => false
  | _ => true

/-- Proof device. (Concerns co_state_manager.h:13-38.) -/
structure Inv {T : Type} (final : T) (s : State T) (tr : List (Ev T)) : Prop where
  own : ∀ i, (s.pc i).inside = true → s.owner = some i
  write : ∀ i x, s.pc i = .setWrite x → s.st ≠ final
  seen : ∀ i, Ev.seen i final ∈ tr → s.st = final
  held : ∀ i, s.pc i = .getUnlock final → s.st = final
  get : ∀ i x, s.pc i = .getUnlock x → x = s.st

theorem inv_step {T : Type} [DecidableEq T] {final : T} {s s' : State T} {a : Act T} {es tr : List (Ev T)} (h : Inv final s tr)
    (hs : step final s a = some (s', es)) : Inv final s' (tr ++ es) := by
  obtain ⟨h1, h2, h3, h4, h5⟩ := h
  cases a <;> simp only [step] at hs <;> repeat' split at hs
  all_goals first | (simp only [reduceCtorEq] at hs; done) | skip
  all_goals
    simp only [Option.some.injEq, Prod.mk.injEq] at hs
    obtain ⟨rfl, rfl⟩ := hs
    constructor <;> (try dsimp only [State.at]) <;> grind [Pc.inside]

theorem inv_runs {T : Type} [DecidableEq T] {final x : T} {as : List (Act T)} {s : State T} {es : List (Ev T)}
    (h : runs (step final) (State.init x) as = some (s, es)) : Inv final s es := by
  have := runs_hist (step := step final) (fun s tr => Inv final s tr) (fun s a s' es tr hI hs => inv_step hI hs) as (State.init x) s es []
    (by constructor <;> simp [State.init, Pc.inside]) h
  simpa using this

theorem final_step {T : Type} [DecidableEq T] {final : T} {s s' : State T} {a : Act T} {es tr : List (Ev T)} (h : Inv final s tr)
    (hf : s.st = final) (hs : step final s a = some (s', es)) : s'.st = final := by
  obtain ⟨h1, h2, h3, h4, h5⟩ := h
  cases a <;> simp only [step] at hs <;> repeat' split at hs
  all_goals first | (simp only [reduceCtorEq] at hs; done) | skip
  all_goals
    simp only [Option.some.injEq, Prod.mk.injEq] at hs
    obtain ⟨rfl, rfl⟩ := hs
    grind [State.at]

/-- C48: once the state is final it stays so, whatever calls of `set_state` are made or already under way. -/
theorem C48_final_stays {T : Type} [DecidableEq T] {final x : T} {as bs : List (Act T)} {s s' : State T} {es fs : List (Ev T)}
    (h : runs (step final) (State.init x) as = some (s, es)) (hf : s.st = final) (h' : runs (step final) s bs = some (s', fs)) :
    s'.st = final := by
  have := runs_hist (step := step final) (fun s tr => Inv final s tr ∧ s.st = final)
    (fun s a s' es tr hI hs => ⟨inv_step hI.1 hs, final_step hI.1 hI.2 hs⟩) bs s s' fs es ⟨inv_runs h, hf⟩ h'
  exact this.2

/-- C48 as a caller of `state()` sees it: after any call returned the final state, every later call returns it. -/
theorem C48_seen_final {T : Type} [DecidableEq T] {final x y : T} {as : List (Act T)} {s : State T} {pre post : List (Ev T)} {i j : Nat}
    (h : runs (step final) (State.init x) as = some (s, pre ++ .seen j y :: post)) (hf : Ev.seen i final ∈ pre) : y = final := by
  obtain ⟨as1, act, as2, s1, s2, p1, p2, q1, q2, rfl, h1, h2, h3, rfl, rfl⟩ := runs_split _ _ _ _ _ _ h
  obtain ⟨k1, k2, k3, k4, k5⟩ := inv_runs h1
  cases act <;> simp only [step] at h2 <;> repeat' split at h2
  all_goals first | (simp only [reduceCtorEq] at h2; done) | skip
  all_goals
    simp only [Option.some.injEq, Prod.mk.injEq] at h2
    obtain ⟨-, h2⟩ := h2
    have hm : Ev.seen j y ∈ p2 ++ Ev.seen j y :: q1 := by simp
    rw [← h2] at hm
    simp at hm
  obtain ⟨rfl, rfl⟩ := hm
  have hp2 : p2 = [] := by
    cases p2 with
    | nil => rfl
    | cons => simp at h2
  subst hp2
  rw [List.append_nil] at hf
  have := k3 i hf
  rename_i hpc
  exact (k5 _ _ hpc).trans this

/-- Concrete case: thread 1 has called `set_state(suspended)` (here 0) before thread 2 sets `finished` (2); the late call changes nothing. -/
example : (runs (step 2) (State.init 1)
    [.callSet 1 0, .callSet 2 2, .go 2, .go 2, .go 2, .go 2, .go 1, .go 1, .go 1, .callGet 3, .go 3, .go 3, .go 3]).map
      (fun p => (p.1.st, (match p.2 with | [.set 1 0, .set 2 2, .seen 3 2] => true | _ => false))) = some (2, true) := by
  decide

end Verif.StateManager
