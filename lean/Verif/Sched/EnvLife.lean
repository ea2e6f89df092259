import Verif.Base.Lts
import Verif.Sched.Manager

/-! # The life of the envs: threads, creators and the monitor together (C59, C61, C62, C64)

Any number of envs, threads that create coroutines, and the monitor, interleaved. The three steps of giving a coroutine to an
env (the decision under `normal_lock`, the test in `add_ctx`, the insertion in `move_ctx_to_here`) are steps of their own,
and so are the monitor's reads and writes of each env. -/

namespace Verif.EnvLife

open Verif.Manager (EnvState Env Choice getBest canSchedule)

/-- Where the thread of an env is: in the loop of `start_schedule_routine__` (co_env.cpp:388-411), after the loop (413),
after `remove_all_ctx__` (414), after `task_finished().pub()` (the env is in `expired_set`, co_manager.cpp:153-159). -/
inductive Phase
  | loop | left | emptied | expired
deriving DecidableEq, Repr

/-- A `co_env` object. `queue`: the coroutines in `all_normal_ctx__`, `ctx_count__` is their number. `sched`: the flag
`CO_ENV_FLAG_SCHEDULED`. The other flags as in `Verif.Manager.Env`. (Concerns co_env.cpp:26-427, co_manager.cpp:85-435.) -/
structure Obj where
  st : EnvState
  noThread : Bool
  converted : Bool
  dontDestroy : Bool
  exclusive : Bool
  sched : Bool
  queue : List Nat
  phase : Phase
deriving DecidableEq, Repr

/-- What the manager sees of an env. (Concerns co_env.cpp:26-427, co_manager.cpp:85-435.) -/
def Obj.view (i : Nat) (o : Obj) : Env :=
  ⟨i, o.st, o.noThread, o.converted, o.dontDestroy, o.exclusive, o.queue.length⟩

/-- `co_env::set_state`: `destroying` is final (co_state_manager.h:22-30, C48). -/
def Obj.setSt (o : Obj) (x : EnvState) : Obj := if o.st = .destroying then o else { o with st := x }

/-- An env with its own thread (co_env.cpp:26-44, `create_env`). The constructor's `set_state(idle)` and the same call in the
new thread (392) are one. -/
def Obj.fresh (dd : Bool) : Obj := ⟨.idle, false, false, dd, false, false, [], .loop⟩

/-- An env converted from a thread of the user (co_env.cpp:45-50). -/
def Obj.ofThread : Obj := ⟨.created, true, true, false, false, false, [], .loop⟩

/-- Where a thread that creates the coroutine `c` is: outside `create_and_schedule_ctx`; before the test of `add_ctx` on `e`
(co_env.cpp:61); before the assertion of `move_ctx_to_here` (83); before the insertion (87-91); before `set_state(busy)`
(94). -/
inductive CPc
  | out
  | picked (c e : Nat)
  | checked (c e : Nat)
  | asserted (c e : Nat)
  | pushed (e : Nat)
deriving DecidableEq, Repr

/-- Where the monitor is: sleeping; in the loop of `force_schedule__`, before the test of the first of these envs
(co_manager.cpp:257) or before its `reset_scheduled_flag` (262); in the first loop of `destroy_redundant_env__` (314-324)
with the count and the candidates so far; in its second loop (329-333) with the candidates to stop. -/
inductive MPc
  | out
  | test (todo : List Nat)
  | reset (e : Nat) (todo : List Nat)
  | scan (todo : List Nat) (count : Nat) (cands : List Nat)
  | stopping (cands : List Nat)
deriving DecidableEq, Repr

/-- The whole. `set` is `normal_set`, `next` the identity of the next env, `used` the coroutines created so far,
`begun` those that were picked at least once. (co_manager.h:40-41.) -/
structure State where
  env : Nat → Option Obj
  set : List Nat
  next : Nat
  base : Nat
  max : Nat
  pc : Nat → CPc
  mon : MPc
  used : List Nat
  begun : List Nat

/-- Events. `made`: an env was created. `chose`: the env decided on for a coroutine. `rejected`: `add_ctx` threw. `abort`: the
assertion failed. `ub`: an env was used after it was deleted. `accepted`: the coroutine was inserted in the env's list.
`ran`: the env's scheduler picked it. `ended`: it finished and was removed. `lost`: it was destroyed by
`remove_all_ctx__`. `switched`: the env scheduled. `cleared`: the monitor cleared the flag, its tick is over for this env.
`signal`: the monitor sent the signal. `stopped`: the monitor stopped the env; `userStop`: someone else did. (Concerns co_env.cpp:26-427, co_manager.cpp:85-435.) -/
inductive Ev
  | made (e : Nat)
  | chose (c e : Nat)
  | rejected (c e : Nat)
  | abort (c e : Nat)
  | ub (c e : Nat)
  | accepted (c e : Nat)
  | ran (c e : Nat)
  | ended (c e : Nat)
  | lost (c e : Nat)
  | switched (e : Nat)
  | cleared (e : Nat)
  | signal (e : Nat)
  | stopped (e : Nat)
  | userStop (e : Nat)
deriving DecidableEq, Repr

/-- Choices. `p` is the place of a new env in the order of the set. (Concerns co_env.cpp:26-427, co_manager.cpp:85-435.) -/
inductive Act
  | create (p : Nat) (dd : Bool)
  | convert (p : Nat)
  | startHere (e : Nat)
  | enterLoop (e : Nat)
  | setExclusive (e : Nat)
  | setBase (n : Nat)
  | setMax (n : Nat)
  | pick (t c p : Nat)
  | bind (t c e : Nat)
  | check (t : Nat)
  | assert (t : Nat)
  | push (t : Nat)
  | busy (t : Nat)
  | sched (e c : Nat)
  | rest (e : Nat)
  | finish (e c : Nat)
  | leave (e : Nat)
  | removeAll (e : Nat)
  | expire (e : Nat)
  | free (e : Nat)
  | userStop (e : Nat)
  | tick
  | mon
  | trim
deriving DecidableEq, Repr

/-- Before anything was created; `n` is `hardware_concurrency` (co_manager.h:40-41). -/
def State.init (n : Nat) : State := ⟨fun _ => none, [], 0, n, n * 2, fun _ => .out, .out, [], []⟩

/-- The envs of the set as the manager sees them. (Concerns co_env.cpp:26-427, co_manager.cpp:85-435.) -/
def State.views (s : State) : List Env := s.set.filterMap fun i => (s.env i).map (Obj.view i)

/-- Replace the object of env `e`. (Concerns co_env.cpp:26-427, co_manager.cpp:85-435.) -/
def State.put (s : State) (e : Nat) (o : Obj) : State := { s with env := fun i => if i = e then some o else s.env i }

/-- Thread `t` is now at `p`. (Concerns co_env.cpp:26-427, co_manager.cpp:85-435.) -/
def State.at (s : State) (t : Nat) (p : CPc) : State := { s with pc := fun i => if i = t then p else s.pc i }

/-- Insert a new env with the object `o` in the set (co_manager.cpp:85-101, 160-166). -/
def State.add (s : State) (p : Nat) (o : Obj) : State :=
  { s.put s.next o with set := s.set.take p ++ s.next :: s.set.drop p, next := s.next + 1 }

/-- One step. `normal_lock` is held by the monitor unless its pc is `out`; `create_env`, `current_env()`, `get_best_env__`,
`remove_env__` and `clean_env_routine__` need it and are one step each.
- `startHere`, `enterLoop`: `schedule_in_this_thread` (co_env.cpp:420-427, 391, 392).
- `pick`: `get_best_env__()` (co_manager.cpp:435). `bind`: `bind_env` is set (431).
- `check`, `assert`, `push`, `busy`: co_env.cpp:61-64, 83, 87-91, 94.
- `sched`: `prepare_to_switch` picks `c` (co_env.cpp:216-228, 249-253); simplified: which coroutine is picked is left open.
- `rest`: it picks the idle coroutine, and the loop sets the state to idle (249, 405).
- `finish`: `c` has finished and is removed (201-214).
- `leave`, `removeAll`, `expire`, `free`: co_env.cpp:394, 413, 414, co_manager.cpp:197-227.
- `tick`, `mon`, `trim`: the monitor (co_manager.cpp:247-264, 308-335). Its other two functions never change anything
  (`Verif.Sched.LockCount`, C56). -/
def step (s : State) : Act → Option (State × List Ev)
  | .create p dd => if s.mon = .out then some (s.add p (Obj.fresh dd), [.made s.next]) else none
  | .convert p => if s.mon = .out then some (s.add p Obj.ofThread, [.made s.next]) else none
  | .startHere e => match s.env e with
    | some o => if o.noThread then some (s.put e { o with noThread := false }, []) else none
    | none => none
  | .enterLoop e => match s.env e with
    | some o => if o.converted && !o.noThread && o.st == .created then some (s.put e (o.setSt .idle), []) else none
    | none => none
  | .setExclusive e => match s.env e with
    | some o => some (s.put e { o with exclusive := true }, [])
    | none => none
  | .setBase n => some ({ s with base := Nat.max n 1 }, [])
  | .setMax n => some ({ s with max := Nat.max n 1 }, [])
  | .pick t c p =>
    if s.mon = .out ∧ s.pc t = .out ∧ c ∉ s.used then
      match getBest s.base (s.views.map Env.obs) with
      | .env e => some ({ s.at t (.picked c e) with used := c :: s.used }, [.chose c e])
      | .fresh => some ({ (s.add p (Obj.fresh false)).at t (.picked c s.next) with used := c :: s.used },
          [.made s.next, .chose c s.next])
    else none
  | .bind t c e => if s.pc t = .out ∧ c ∉ s.used then
      some ({ s.at t (.picked c e) with used := c :: s.used }, [.chose c e])
    else none
  | .check t => match s.pc t with
    | .picked c e => match s.env e with
      | some o => if o.st = .created ∨ o.st = .destroying then some (s.at t .out, [.rejected c e])
        else some (s.at t (.checked c e), [])
      | none => some (s.at t .out, [.ub c e])
    | _ => none
  | .assert t => match s.pc t with
    | .checked c e => match s.env e with
      | some o => if o.st = .created ∨ o.st = .destroying then some (s.at t .out, [.abort c e])
        else some (s.at t (.asserted c e), [])
      | none => some (s.at t .out, [.ub c e])
    | _ => none
  | .push t => match s.pc t with
    | .asserted c e => match s.env e with
      | some o => some ((s.put e { o with queue := o.queue ++ [c] }).at t (.pushed e), [.accepted c e])
      | none => some (s.at t .out, [.ub c e])
    | _ => none
  | .busy t => match s.pc t with
    | .pushed e => match s.env e with
      | some o => some ((s.put e (o.setSt .busy)).at t .out, [])
      | none => some (s.at t .out, [.ub 0 e])
    | _ => none
  | .sched e c => match s.env e with
    | some o => if o.phase = .loop ∧ o.noThread = false ∧ o.st ≠ .created ∧ o.st ≠ .destroying ∧ c ∈ o.queue then
        some ({ s.put e { (o.setSt .busy) with sched := true } with begun := c :: s.begun }, [.switched e, .ran c e])
      else none
    | none => none
  | .rest e => match s.env e with
    | some o => if o.phase = .loop ∧ o.noThread = false ∧ o.st ≠ .created then
        some (s.put e { (o.setSt .idle) with sched := true }, [.switched e])
      else none
    | none => none
  | .finish e c => match s.env e with
    | some o => if o.phase = .loop ∧ c ∈ o.queue ∧ c ∈ s.begun then
        some (s.put e { o with queue := o.queue.erase c }, [.ended c e])
      else none
    | none => none
  | .leave e => match s.env e with
    | some o => if o.phase = .loop ∧ o.noThread = false ∧ o.st = .destroying then
        some (s.put e { o with phase := .left }, []) else none
    | none => none
  | .removeAll e => match s.env e with
    | some o => if o.phase = .left then
        some (s.put e { o with phase := .emptied, queue := [] }, o.queue.map (Ev.lost · e)) else none
    | none => none
  | .expire e => match s.env e with
    | some o => if s.mon = .out ∧ o.phase = .emptied then
        some ({ s.put e { o with phase := .expired } with set := s.set.filter (· != e) }, []) else none
    | none => none
  | .free e => match s.env e with
    | some o => if s.mon = .out ∧ o.phase = .expired then
        some ({ s with env := fun i => if i = e then none else s.env i }, []) else none
    | none => none
  | .userStop e => match s.env e with
    | some o => if o.noThread then none else some (s.put e (o.setSt .destroying), [.userStop e])
    | none => none
  | .tick => if s.mon = .out then some ({ s with mon := .test s.set }, []) else none
  | .trim => if s.mon = .out then some ({ s with mon := .scan s.set 0 [] }, []) else none
  | .mon => match s.mon with
    | .out => none
    | .test [] => some ({ s with mon := .out }, [])
    | .test (e :: es) => match s.env e with
      | some o => some ({ s with mon := .reset e es },
          if (o.st = .busy ∨ o.st = .blocked) ∧ o.sched = false ∧ o.queue.length > 1 then [.signal e] else [])
      | none => none
    | .reset e es => match s.env e with
      | some o => some ({ s.put e { o with sched := false } with mon := .test es }, [.cleared e])
      | none => none
    | .scan (e :: es) n cs => match s.env e with
      | some o =>
        let n' := if canSchedule o.st o.noThread then n + 1 else n
        let cs' := if Manager.isSurplus (o.view e) then cs ++ [e] else cs
        some ({ s with mon := .scan es n' cs' }, [])
      | none => none
    | .scan [] n cs => some ({ s with mon := .stopping (if n > s.max then cs.take (n - s.max) else []) }, [])
    | .stopping [] => some ({ s with mon := .out }, [])
    | .stopping (e :: es) => match s.env e with
      | some o => some ({ (if o.noThread then s else s.put e (o.setSt .destroying)) with mon := .stopping es }, [.stopped e])
      | none => none

/-! ## Invariants -/

/-- The envs the monitor still has to look at. (Concerns co_env.cpp:26-427, co_manager.cpp:85-435.) -/
def MPc.todo : MPc → List Nat
  | .out => []
  | .test es => es
  | .reset e es => e :: es
  | .scan es _ cs => es ++ cs
  | .stopping cs => cs

/-- The env a thread has committed to after the test of `add_ctx`. (Concerns co_env.cpp:26-427, co_manager.cpp:85-435.) -/
def CPc.target : CPc → Option Nat
  | .checked _ e => some e
  | .asserted _ e => some e
  | .pushed e => some e
  | _ => none

/-- Facts about every reachable state: only an env with a thread is idle; nothing is ever blocked; what is in the set
exists; a thread that has left its loop is being destroyed; identities are below `next`. (Concerns co_env.cpp:26-427, co_manager.cpp:85-435.) -/
structure Inv (s : State) : Prop where
  idle : ∀ e o, s.env e = some o → o.st = .idle → o.noThread = false
  blocked : ∀ e o, s.env e = some o → o.st ≠ .blocked
  created : ∀ e o, s.env e = some o → o.noThread = true → o.st = .created
  left : ∀ e o, s.env e = some o → o.phase ≠ .loop → o.st = .destroying
  inSet : ∀ e, e ∈ s.set → (s.env e).isSome
  live : ∀ e o, s.env e = some o → e ∈ s.set → o.phase ≠ .expired
  bound : ∀ e o, s.env e = some o → e < s.next
  nodup : s.set.Nodup
  todo : ∀ e, e ∈ s.mon.todo → e ∈ s.set
  target : ∀ t e, (s.pc t).target = some e → e < s.next
  started : ∀ t e o, (s.pc t).target = some e → s.env e = some o → o.noThread = false ∧ o.st ≠ .created

theorem mem_ins (l : List Nat) (p n e : Nat) : e ∈ l.take p ++ n :: l.drop p ↔ e = n ∨ e ∈ l := by
  conv => rhs; rw [← List.take_append_drop p l]
  simp only [List.mem_append, List.mem_cons]
  grind

theorem nodup_ins (l : List Nat) (p n : Nat) (h : l.Nodup) (hn : n ∉ l) : (l.take p ++ n :: l.drop p).Nodup := by
  have h' := h
  rw [← List.take_append_drop p l] at h' hn
  rw [List.nodup_append] at h' ⊢
  simp only [List.mem_append, not_or] at hn
  refine ⟨h'.1, List.nodup_cons.mpr ⟨hn.2, h'.2.1⟩, ?_⟩
  intro a ha b hb
  rcases List.mem_cons.mp hb with rfl | hb
  · rintro rfl; exact hn.1 ha
  · exact h'.2.2 a ha b hb

attribute [local grind =] State.put State.at State.add Obj.setSt Obj.fresh Obj.ofThread MPc.todo CPc.target mem_ins

/-- The tactic for all invariants of this file: take the step apart and let `grind` close each field. -/
local macro "crunch" hs:ident : tactic => `(tactic| (
  simp only [step] at $hs:ident
  repeat' split at $hs:ident
  all_goals first | (simp only [reduceCtorEq] at $hs:ident; done) | skip
  all_goals simp only [Option.some.injEq, Prod.mk.injEq] at $hs:ident
  all_goals (have e1 := And.left $hs:ident; have e2 := And.right $hs:ident; clear $hs:ident; subst e1; subst e2)))

theorem next_not_mem {s : State} (h : Inv s) : s.next ∉ s.set := by
  intro hm
  obtain ⟨o, ho⟩ := Option.isSome_iff_exists.mp (h.inSet _ hm)
  exact absurd (h.bound _ _ ho) (by omega)

theorem inv_init (n : Nat) : Inv (State.init n) := by
  constructor <;> simp [State.init, MPc.todo, CPc.target]

theorem inv_add {s : State} (h : Inv s) (p : Nat) (o : Obj) (ho : o = Obj.ofThread ∨ ∃ dd, o = Obj.fresh dd)
    (hm : s.mon = .out) : Inv (s.add p o) := by
  obtain ⟨h1, h2, h3, h4, h5, h6, h7, h8, h9, h10, h11⟩ := h
  have hn : s.next ∉ s.set := next_not_mem ⟨h1, h2, h3, h4, h5, h6, h7, h8, h9, h10, h11⟩
  constructor <;> dsimp only [State.add, State.put]
  case nodup => exact nodup_ins _ _ _ h8 hn
  all_goals grind

theorem inv_step {s s' : State} {a : Act} {es : List Ev} (h : Inv s) (hs : step s a = some (s', es)) : Inv s' := by
  cases a
  case create p dd =>
    crunch hs; exact inv_add h p _ (Or.inr ⟨dd, rfl⟩) ‹_›
  case convert p =>
    crunch hs; exact inv_add h p _ (Or.inl rfl) ‹_›
  case pick t c p =>
    crunch hs
    · obtain ⟨h1, h2, h3, h4, h5, h6, h7, h8, h9, h10, h11⟩ := h
      constructor <;> (try dsimp only [State.at]) <;> first | assumption | grind
    · rename_i hc _ _
      have h' := inv_add h p _ (Or.inr ⟨false, rfl⟩) hc.1
      obtain ⟨h1, h2, h3, h4, h5, h6, h7, h8, h9, h10, h11⟩ := h'
      constructor <;> (try dsimp only [State.at]) <;> first | assumption | grind
  case expire e =>
    crunch hs
    obtain ⟨h1, h2, h3, h4, h5, h6, h7, h8, h9, h10, h11⟩ := h
    constructor <;> (try dsimp only [State.put])
    case nodup => exact h8.filter _
    all_goals grind
  case mon =>
    obtain ⟨h1, h2, h3, h4, h5, h6, h7, h8, h9, h10, h11⟩ := h
    crunch hs
    all_goals constructor <;> (try dsimp only [State.put]) <;> first | assumption | grind
  all_goals
    obtain ⟨h1, h2, h3, h4, h5, h6, h7, h8, h9, h10, h11⟩ := h
    crunch hs
    all_goals constructor <;> (try dsimp only [State.put, State.at]) <;> first | assumption | grind

theorem inv_runs {n : Nat} {as : List Act} {s : State} {tr : List Ev} (h : runs step (State.init n) as = some (s, tr)) :
    Inv s := runs_inv Inv (fun _ _ _ _ h hs => inv_step h hs) as _ _ _ (inv_init n) h

/-! ## C59 in reachable states -/

/-- **C59, in every reachable state.** A coroutine that is not bound is given to an env of the set that has a thread and is
neither blocked nor being destroyed, namely an idle one if there is one and else one that is not exclusive and has the least
load of those; or to an env that was just made for it, if there is no idle one and fewer than `base` others. -/
theorem C59_reachable {n : Nat} {as : List Act} {s s' : State} {tr es : List Ev} {t c p : Nat}
    (h : runs step (State.init n) as = some (s, tr)) (hb : 1 ≤ s.base)
    (hl : ∀ e o, s.env e = some o → o.queue.length < 2 ^ 64 - 1)
    (hs : step s (.pick t c p) = some (s', es)) :
    (∃ e o, es = [.chose c e] ∧ e ∈ s.set ∧ s.env e = some o ∧ o.st ≠ .blocked ∧ o.st ≠ .destroying ∧
      o.noThread = false ∧
      (o.st = .idle ∨ (∀ i o', i ∈ s.set → s.env i = some o' → o'.st ≠ .idle ∧
        (o'.st ≠ .destroying → o'.noThread = false → o'.exclusive = false → o.queue.length ≤ o'.queue.length)) ∧
        o.exclusive = false)) ∨
    (es = [.made s.next, .chose c s.next] ∧ (∀ i o', i ∈ s.set → s.env i = some o' → o'.st ≠ .idle) ∧
      s.views.countP (fun e => decide (Manager.Eligible e)) < s.base) := by
  have hI := inv_runs h
  have hv : ∀ v, v ∈ s.views ↔ ∃ i o, i ∈ s.set ∧ s.env i = some o ∧ v = Obj.view i o := by
    intro v
    simp only [State.views, List.mem_filterMap, Option.map_eq_some_iff]
    constructor
    · rintro ⟨i, h1, o, h2, rfl⟩; exact ⟨i, o, h1, h2, rfl⟩
    · rintro ⟨i, o, h1, h2, rfl⟩; exact ⟨i, h1, o, h2, rfl⟩
  obtain ⟨p1, p2, p3⟩ := Manager.C59_placement s.base hb s.views
    (by intro v hm; obtain ⟨i, o, -, h2, rfl⟩ := (hv v).mp hm; exact hl i o h2)
    (by intro v hm; obtain ⟨i, o, -, h2, rfl⟩ := (hv v).mp hm; exact fun hid => hI.idle i o h2 hid)
  simp only [step] at hs
  split at hs
  · rename_i hc
    by_cases hid : ∃ v ∈ s.views, v.st = .idle
    · obtain ⟨v, hm, h1, h2, h3⟩ := p1 hid
      obtain ⟨i, o, k1, k2, rfl⟩ := (hv v).mp hm
      rw [h3] at hs
      simp only [Option.some.injEq, Prod.mk.injEq] at hs
      have h1' : o.st = .idle := h1
      exact Or.inl ⟨i, o, hs.2.symm, k1, k2, by simp [h1'], by simp [h1'], h2, Or.inl h1⟩
    · have hid' : ∀ v ∈ s.views, v.st ≠ .idle := fun v hm hx => hid ⟨v, hm, hx⟩
      have hni : ∀ i o', i ∈ s.set → s.env i = some o' → o'.st ≠ .idle := fun i o' k1 k2 =>
        hid' (Obj.view i o') ((hv _).mpr ⟨i, o', k1, k2, rfl⟩)
      by_cases hcnt : s.views.countP (fun e => decide (Manager.Eligible e)) < s.base
      · rw [p2 hid' hcnt] at hs
        simp only [Option.some.injEq, Prod.mk.injEq] at hs
        exact Or.inr ⟨hs.2.symm, hni, hcnt⟩
      · obtain ⟨v, hm, h1, h2, h3⟩ := p3 hid' (by omega)
        obtain ⟨i, o, k1, k2, rfl⟩ := (hv v).mp hm
        rw [h2] at hs
        simp only [Option.some.injEq, Prod.mk.injEq] at hs
        obtain ⟨e1, e2, e3, e4⟩ := h1
        refine Or.inl ⟨i, o, hs.2.symm, k1, k2, e1, e2, e3, Or.inr ⟨fun j o' j1 j2 => ⟨hni j o' j1 j2, ?_⟩, e4⟩⟩
        intro f1 f2 f3
        exact h3 (Obj.view j o') ((hv _).mpr ⟨j, o', j1, j2, rfl⟩) ⟨hI.blocked j o' j2, f1, f2, f3⟩
  · simp at hs

/-- Events and the objects of the first envs after a schedule, for the witnesses. (Concerns co_env.cpp:26-427, co_manager.cpp:85-435.) -/
def after (n : Nat) (as : List Act) (k : Nat) : Option (List Ev × List (Option Obj)) :=
  (runs step (State.init n) as).map fun (s, tr) => (tr, (List.range k).map s.env)

/-- The third coroutine goes to the env that has one coroutine, not to the one that has two. -/
example : (after 2 [.pick 0 10 0, .check 0, .assert 0, .push 0, .busy 0, .pick 0 11 1, .check 0, .assert 0, .push 0, .busy 0,
    .bind 0 12 0, .check 0, .assert 0, .push 0, .busy 0, .pick 0 13 0] 2).map (·.1) =
  some [.made 0, .chose 10 0, .accepted 10 0, .made 1, .chose 11 1, .accepted 11 1, .chose 12 0, .accepted 12 0,
    .chose 13 1] := by decide

/-- A thread that calls `schedule_in_this_thread` has cleared the flag but not yet set the state: its env is chosen for a new
coroutine, and `add_ctx` throws "env state error". -/
theorem C59_starting_env_chosen :
    (after 1 [.convert 0, .startHere 0, .pick 0 10 0, .check 0] 1).map (·.1) =
      some [.made 0, .chose 10 0, .rejected 10 0] := by decide

/-- An idle exclusive env is given a coroutine that is not bound to it (C60). -/
theorem C60_reachable : (after 1 [.create 0 true, .setExclusive 0, .pick 0 10 0, .check 0, .assert 0, .push 0] 1).map (·.1) =
    some [.made 0, .chose 10 0, .accepted 10 0] := by decide

/-! ## C62 -/

/-- After the trace `tr`, env `e` has scheduled since the monitor last cleared its flag. (Concerns co_env.cpp:26-427, co_manager.cpp:85-435.) -/
def Fresh (e : Nat) (tr : List Ev) : Prop := ∃ a b, tr = a ++ .switched e :: b ∧ Ev.cleared e ∉ b

theorem fresh_snoc (e : Nat) (tr : List Ev) (ev : Ev) :
    Fresh e (tr ++ [ev]) ↔ ev = .switched e ∨ (ev ≠ .cleared e ∧ Fresh e tr) := by
  constructor
  · rintro ⟨a, b, h1, h2⟩
    rcases List.eq_nil_or_concat b with rfl | ⟨b', y, rfl⟩
    · have := List.append_inj' h1 (by simp)
      left; simpa using this.2
    · rw [List.concat_eq_append, ← List.cons_append, ← List.append_assoc] at h1
      have := List.append_inj' h1 (by simp)
      obtain ⟨h3, h4⟩ := this
      simp only [List.cons.injEq, and_true] at h4
      subst h4
      right
      simp only [List.concat_eq_append, List.mem_append, List.mem_singleton, not_or] at h2
      exact ⟨fun h => h2.2 h.symm, a, b', h3, h2.1⟩
  · rintro (rfl | ⟨h, a, b, rfl, h2⟩)
    · exact ⟨tr, [], rfl, by simp⟩
    · refine ⟨a, b ++ [ev], by simp, ?_⟩
      simp only [List.mem_append, List.mem_singleton, not_or]
      exact ⟨h2, fun h' => h h'.symm⟩

theorem fresh_two (e : Nat) (tr : List Ev) (a b : Ev) :
    Fresh e (tr ++ [a, b]) ↔ Fresh e ((tr ++ [a]) ++ [b]) := by simp

theorem fresh_other (e : Nat) (tr es : List Ev) (h : ∀ x ∈ es, x ≠ .switched e ∧ x ≠ .cleared e) :
    Fresh e (tr ++ es) ↔ Fresh e tr := by
  induction es generalizing tr with
  | nil => simp
  | cons x es ih =>
    have : tr ++ x :: es = (tr ++ [x]) ++ es := by simp
    rw [this, ih (tr ++ [x]) (fun y hy => h y (by simp [hy])), fresh_snoc]
    have := h x (by simp)
    grind

theorem fresh_nil (e : Nat) : ¬ Fresh e [] := by rintro ⟨a, b, h, _⟩; simp at h

/-- The flag of an env says whether it scheduled since the monitor's last visit. (Concerns co_env.cpp:26-427, co_manager.cpp:85-435.) -/
structure Flag (s : State) (tr : List Ev) : Prop where
  inv : Inv s
  flag : ∀ e o, s.env e = some o → (o.sched = true ↔ Fresh e tr)
  new : ∀ e, Fresh e tr → e < s.next

theorem flag_other {s s' : State} {tr es : List Ev} (h : Flag s tr) (hi : Inv s')
    (he : ∀ e, ∀ x ∈ es, x ≠ .switched e ∧ x ≠ .cleared e)
    (ho : ∀ e o', s'.env e = some o' → (∃ o, s.env e = some o ∧ o.sched = o'.sched) ∨ (s.next ≤ e ∧ o'.sched = false))
    (hn : s.next ≤ s'.next) : Flag s' (tr ++ es) := by
  refine ⟨hi, fun e o' h' => ?_, fun e hf => ?_⟩
  · rw [fresh_other e tr es (he e)]
    rcases ho e o' h' with ⟨o, h1, h2⟩ | ⟨h1, h2⟩
    · rw [← h2]; exact h.flag e o h1
    · rw [h2]
      constructor
      · intro h; cases h
      · intro hf; have := h.new e hf; omega
  · rw [fresh_other e tr es (he e)] at hf
    have := h.new e hf; omega

theorem flag_step {s s' : State} {a : Act} {es tr : List Ev} (h : Flag s tr) (hs : step s a = some (s', es)) :
    Flag s' (tr ++ es) := by
  have hi := inv_step h.inv hs
  cases a
  case sched e c =>
    crunch hs
    obtain ⟨h0, h1, h2⟩ := h
    have hb := h0.bound
    refine ⟨hi, ?_, ?_⟩ <;> simp only [fresh_two, fresh_snoc] <;> dsimp only [State.put] <;> grind
  case rest e =>
    crunch hs
    obtain ⟨h0, h1, h2⟩ := h
    have hb := h0.bound
    refine ⟨hi, ?_, ?_⟩ <;> simp only [fresh_snoc] <;> dsimp only [State.put] <;> grind
  case mon =>
    crunch hs
    all_goals first
      | (refine flag_other h hi ?_ ?_ ?_ <;> grind; done)
      | (obtain ⟨h0, h1, h2⟩ := h
         refine ⟨hi, ?_, ?_⟩ <;> simp only [fresh_snoc] <;> dsimp only [State.put] <;> grind)
  all_goals
    crunch hs
    all_goals refine flag_other h hi ?_ ?_ ?_ <;> grind

theorem flag_runs {n : Nat} {as : List Act} {s : State} {tr : List Ev} (h : runs step (State.init n) as = some (s, tr)) :
    Flag s tr := by
  have := runs_hist Flag (fun s a s' es tr h hs => flag_step h hs) as (State.init n) s tr []
    ⟨inv_init n, by simp [State.init], fun e hf => absurd hf (fresh_nil e)⟩ h
  simpa using this

/-- What a signal tells: the monitor's step that sends it, and the env it looked at. -/
theorem signal_step {s s' : State} {a : Act} {es : List Ev} {e : Nat} (hs : step s a = some (s', es))
    (he : Ev.signal e ∈ es) :
    es = [.signal e] ∧ ∃ o, s.env e = some o ∧ (o.st = .busy ∨ o.st = .blocked) ∧ o.sched = false ∧ o.queue.length > 1 := by
  cases a <;> crunch hs <;> grind

/-- **C62, first half.** Every signal goes to an env that is busy, has more than one coroutine, and did not schedule since the
monitor's previous visit: between every earlier switch of the env and the signal lies the end of a tick. In particular an
env that schedules between any two ticks is never signalled. -/
theorem C62_only_stuck {n : Nat} {as : List Act} {s : State} {pre post : List Ev} {e : Nat}
    (h : runs step (State.init n) as = some (s, pre ++ .signal e :: post)) :
    (∃ as1 s1 o, runs step (State.init n) as1 = some (s1, pre) ∧ s1.env e = some o ∧ o.st = .busy ∧ o.queue.length > 1) ∧
    ∀ a b, pre = a ++ .switched e :: b → Ev.cleared e ∈ b := by
  obtain ⟨as1, a, as2, s1, s2, p1, p2, q1, q2, rfl, h1, h2, h3, rfl, rfl⟩ := runs_split _ _ _ _ _ _ h
  obtain ⟨he, o, ho, h4, h5, h6⟩ := signal_step (e := e) h2 (by simp)
  obtain rfl : p2 = [] := by
    cases p2 with
    | nil => rfl
    | cons x p2 => simp at he
  have hF := flag_runs h1
  refine ⟨⟨as1, s1, o, by simpa using h1, ho, ?_, h6⟩, ?_⟩
  · rcases h4 with h4 | h4
    · exact h4
    · exact absurd h4 (hF.inv.blocked e o ho)
  · intro x y hxy
    by_cases hc : Ev.cleared e ∈ y
    · exact hc
    · exfalso
      have := (hF.flag e o ho).mpr ⟨x, y, by simpa using hxy, hc⟩
      simp [h5] at this

/-- **C62, second half.** When the monitor comes to an env that is busy, has more than one coroutine and did not schedule
since the previous visit (or never did), it signals it. So an env that stops scheduling is signalled at the second visit at
the latest: the first one clears the flag. -/
theorem C62_stuck_signalled {n : Nat} {as : List Act} {s : State} {tr : List Ev} {e : Nat} {todo : List Nat} {o : Obj}
    (h : runs step (State.init n) as = some (s, tr)) (hm : s.mon = .test (e :: todo)) (ho : s.env e = some o)
    (hb : o.st = .busy) (hq : o.queue.length > 1) (hns : ∀ a b, tr = a ++ .switched e :: b → Ev.cleared e ∈ b) :
    ∃ s', step s .mon = some (s', [.signal e]) := by
  have hF := flag_runs h
  have : o.sched = false := by
    cases hx : o.sched
    · rfl
    · obtain ⟨a, b, h1, h2⟩ := (hF.flag e o ho).mp hx
      exact absurd (hns a b h1) h2
  exact ⟨{ s with mon := .reset e todo }, by simp only [step, hm, ho, hb, this, true_or, true_and, hq, if_true]⟩

/-- The monitor's visits do not depend on anything but the set: every env of the set is visited in every tick. -/
theorem C62_every_env_visited {n : Nat} {as : List Act} {s : State} {tr : List Ev}
    (h : runs step (State.init n) as = some (s, tr)) (hm : s.mon = .out) :
    ∃ s' es, runs step s (.tick :: List.replicate (2 * s.set.length + 1) .mon) = some (s', es) ∧ s'.mon = .out ∧
      ∀ e ∈ s.set, Ev.cleared e ∈ es := by
  have hI := inv_runs h
  have key : ∀ (l : List Nat) (u : State), (∀ e ∈ l, (u.env e).isSome) → u.mon = .test l →
      ∃ s' es, runs step u (List.replicate (2 * l.length + 1) .mon) = some (s', es) ∧ s'.mon = .out ∧
        ∀ e ∈ l, Ev.cleared e ∈ es := by
    intro l
    induction l with
    | nil =>
      intro u _ hu
      exact ⟨{ u with mon := .out }, [], by simp [runs, step, hu, List.replicate], rfl, by simp⟩
    | cons e l ih =>
      intro u he hu
      obtain ⟨o, ho⟩ := Option.isSome_iff_exists.mp (he e (by simp))
      have h1 : ∃ x, step u .mon = some ({ u with mon := .reset e l }, x) := by
        simp only [step, hu, ho]; exact ⟨_, rfl⟩
      obtain ⟨x, h1⟩ := h1
      have h2 : step { u with mon := .reset e l } .mon =
          some ({ u.put e { o with sched := false } with mon := .test l }, [.cleared e]) := by
        simp only [step, ho]; rfl
      obtain ⟨s', es, r1, r2, r3⟩ := ih { u.put e { o with sched := false } with mon := .test l }
        (by intro i hi; have := he i (by simp [hi]); simp only [State.put]; split <;> simp_all) rfl
      have hrep : List.replicate (2 * (e :: l).length + 1) Act.mon =
          .mon :: .mon :: List.replicate (2 * l.length + 1) .mon := by
        rw [List.length_cons, show 2 * (l.length + 1) + 1 = (2 * l.length + 1) + 1 + 1 by omega]; rfl
      refine ⟨s', x ++ ([.cleared e] ++ es), ?_, r2, ?_⟩
      · rw [hrep]; simp only [runs, h1, h2, r1]
      · intro i hi
        rcases List.mem_cons.mp hi with rfl | hi
        · simp
        · simp [r3 i hi]
  obtain ⟨s', es, r1, r2, r3⟩ := key s.set { s with mon := .test s.set } hI.inSet rfl
  exact ⟨s', es, by simp [runs, step, hm, r1], r2, r3⟩

/-- Two coroutines on one env that switched once and then stopped switching: no signal at the first tick, one at the
second. -/
example : (after 1 [.pick 0 10 0, .check 0, .assert 0, .push 0, .busy 0, .bind 0 11 0, .check 0, .assert 0, .push 0, .busy 0,
    .sched 0 10, .tick, .mon, .mon, .mon, .tick, .mon, .mon, .mon] 1).map (·.1) =
  some [.made 0, .chose 10 0, .accepted 10 0, .chose 11 0, .accepted 11 0, .switched 0, .ran 10 0, .cleared 0, .signal 0,
    .cleared 0] := by decide

/-! ## C61 with envs that change meanwhile -/

/-- The envs the monitor has chosen to stop. (Concerns co_env.cpp:26-427, co_manager.cpp:85-435.) -/
def MPc.cands : MPc → List Nat
  | .scan _ _ cs => cs
  | .stopping cs => cs
  | _ => []

attribute [local grind =] MPc.cands

/-- The candidates of the monitor are envs with a thread that the library made for itself. (Concerns co_env.cpp:26-427, co_manager.cpp:85-435.) -/
def Owned (s : State) : Prop :=
  ∀ e ∈ s.mon.cands, ∀ o, s.env e = some o → o.converted = false ∧ o.dontDestroy = false ∧ o.noThread = false

theorem owned_step {s s' : State} {a : Act} {es : List Ev} (h : Owned s) (hs : step s a = some (s', es)) : Owned s' := by
  have hx : ∀ e o, Manager.isSurplus (Obj.view e o) = true →
      o.converted = false ∧ o.dontDestroy = false ∧ o.noThread = false := by
    intro e o hh
    obtain ⟨-, -, h1, h2, h3⟩ := (Manager.surplus_iff _).mp hh
    exact ⟨h1, h2, h3⟩
  cases a <;> crunch hs <;> intro e he o ho <;> have h' := h e <;>
    (try dsimp only [State.put, State.at] at he ho) <;> grind

theorem owned_runs {n : Nat} {as : List Act} {s : State} {tr : List Ev} (h : runs step (State.init n) as = some (s, tr)) :
    Owned s := runs_inv Owned (fun _ _ _ _ h hs => owned_step h hs) as _ _ _ (by simp [Owned, State.init, MPc.cands]) h

/-- **C61, whatever happens meanwhile.** An env the monitor stops has a thread of the library's and is not one the user
asked to keep. -/
theorem C61_owned {n : Nat} {as : List Act} {s s' : State} {tr es : List Ev} {a : Act} {e : Nat}
    (h : runs step (State.init n) as = some (s, tr)) (hs : step s a = some (s', es)) (he : Ev.stopped e ∈ es) :
    ∃ o, s.env e = some o ∧ o.converted = false ∧ o.dontDestroy = false ∧ o.noThread = false := by
  have h1 := owned_runs h e
  cases a <;> crunch hs <;> grind

/-- **C61, negation for a set that changes meanwhile.** The monitor finds env 0 idle and empty; before it stops it, another
thread, which had chosen the env before, inserts its coroutine and makes the env busy; the monitor stops it all the same. -/
theorem C61_busy_env_stopped :
    after 1 [.setMax 1, .create 0 false, .create 1 false, .pick 0 10 0, .trim, .mon, .mon, .check 0, .assert 0, .push 0, .busy 0,
      .mon, .mon] 1 =
    some ([.made 0, .made 1, .chose 10 0, .accepted 10 0, .stopped 0],
      [some ⟨.destroying, false, false, false, false, false, [10], .loop⟩]) := by decide

/-! ## C64 -/

/-- **C64, negation.** A coroutine accepted by an env that is then stopped (C61_busy_env_stopped) before it was picked is never
picked: from no state in which its env is being destroyed does any execution pick it. -/
theorem C64_never_picked (as : List Act) (s s' : State) (tr : List Ev) (e : Nat)
    (hd : ∀ o, s.env e = some o → o.st = .destroying) (hn : e < s.next) (h : runs step s as = some (s', tr)) (c : Nat) :
    Ev.ran c e ∉ tr := by
  have := runs_hist (step := step) (fun s tr => (∀ o, s.env e = some o → o.st = .destroying) ∧ e < s.next ∧ Ev.ran c e ∉ tr)
    (by
      intro s a s' es tr hI hs
      obtain ⟨h1, h2, h3⟩ := hI
      refine ⟨?_, ?_, ?_⟩
      · cases a <;> crunch hs <;> intro o ho <;> (try dsimp only [State.put, State.at, State.add] at ho) <;> grind
      · cases a <;> crunch hs <;> (try dsimp only [State.put, State.at, State.add]) <;> grind
      · cases a <;> crunch hs <;> grind)
    as s s' tr [] ⟨hd, hn, by simp⟩ h
  simpa using this.2.2

/-- Continuing `C61_busy_env_stopped`: the coroutine is destroyed by its env without ever having run. -/
theorem C64_destroyed_unrun :
    (after 1 [.setMax 1, .create 0 false, .create 1 false, .pick 0 10 0, .trim, .mon, .mon, .check 0, .assert 0, .push 0, .busy 0,
      .mon, .mon, .mon, .leave 0, .removeAll 0] 1).map (·.1) =
    some [.made 0, .made 1, .chose 10 0, .accepted 10 0, .stopped 0, .lost 10 0] := by decide

/-- **C64, negation of the second half.** The test of `add_ctx` and the assertion come before the insertion: an env that is
stopped in between accepts the coroutine; here it even does so after its thread has removed all coroutines. -/
theorem C64_stopped_env_accepts :
    (after 1 [.setMax 1, .create 0 false, .create 1 false, .pick 0 10 0, .check 0, .assert 0, .trim, .mon, .mon, .mon, .mon, .mon,
      .leave 0, .removeAll 0, .push 0] 1).map (·.1) =
    some [.made 0, .made 1, .chose 10 0, .stopped 0, .accepted 10 0] := by decide

/-- Stopped between the test and the assertion: the process aborts (in a build without assertions the insertion goes
ahead). -/
theorem C64_assertion_fails :
    (after 1 [.setMax 1, .create 0 false, .create 1 false, .pick 0 10 0, .check 0, .trim, .mon, .mon, .mon, .mon, .mon,
      .assert 0] 1).map (·.1) =
    some [.made 0, .made 1, .chose 10 0, .stopped 0, .abort 10 0] := by decide

/-- Stopped, ended and deleted before the insertion: the deleted env is used. -/
theorem C64_deleted_env_used :
    (after 1 [.setMax 1, .create 0 false, .create 1 false, .pick 0 10 0, .check 0, .assert 0, .trim, .mon, .mon, .mon, .mon, .mon,
      .leave 0, .removeAll 0, .expire 0, .free 0, .push 0] 1).map (·.1) =
    some [.made 0, .made 1, .chose 10 0, .stopped 0, .ub 10 0] := by decide

/-- A thread is about to insert `c` into `e`. (Concerns co_env.cpp:26-427, co_manager.cpp:85-435.) -/
def Committed (s : State) (c e : Nat) : Prop := ∃ t, s.pc t = .checked c e ∨ s.pc t = .asserted c e

/-- **C64, the part of the second half that holds.** An env that is being destroyed (or was deleted) when `add_ctx` makes its
test never accepts the coroutine: whatever happens next, `c` is not accepted by `e` unless a thread was already past the
test. -/
theorem C64_stopped_env_rejects_partial (as : List Act) (s s' : State) (tr : List Ev) (c e : Nat)
    (hd : ∀ o, s.env e = some o → o.st = .destroying) (hn : e < s.next) (hc : ¬ Committed s c e)
    (h : runs step s as = some (s', tr)) : Ev.accepted c e ∉ tr := by
  have := runs_hist (step := step) (fun s tr => (∀ o, s.env e = some o → o.st = .destroying) ∧ e < s.next ∧
      (∀ t, s.pc t ≠ .checked c e ∧ s.pc t ≠ .asserted c e) ∧ Ev.accepted c e ∉ tr)
    (by
      intro s a s' es tr hI hs
      obtain ⟨h1, h2, h3, h4⟩ := hI
      refine ⟨?_, ?_, ?_, ?_⟩
      · cases a <;> crunch hs <;> intro o ho <;> (try dsimp only [State.put, State.at, State.add] at ho) <;> grind
      · cases a <;> crunch hs <;> (try dsimp only [State.put, State.at, State.add]) <;> grind
      · cases a <;> crunch hs <;> intro t <;> have h3' := h3 t <;> (try dsimp only [State.put, State.at, State.add]) <;> grind
      · cases a <;> crunch hs <;> grind)
    as s s' tr [] ⟨hd, hn, fun t => ⟨fun h => hc ⟨t, Or.inl h⟩, fun h => hc ⟨t, Or.inr h⟩⟩, by simp⟩ h
  simpa using this.2.2.2

/-- A coroutine offered to an env that is already being destroyed. -/
example : (after 1 [.create 0 true, .userStop 0, .bind 0 10 0, .check 0] 1).map (·.1) =
    some [.made 0, .userStop 0, .chose 10 0, .rejected 10 0] := by decide

/-- `c` was picked at some time in `tr`. (Concerns co_env.cpp:26-427, co_manager.cpp:85-435.) -/
def Ran (c : Nat) (tr : List Ev) : Prop := ∃ e, Ev.ran c e ∈ tr

theorem ran_append (c : Nat) (a b : List Ev) : Ran c (a ++ b) ↔ Ran c a ∨ Ran c b := by
  simp only [Ran, List.mem_append]
  constructor
  · rintro ⟨e, h | h⟩
    · exact Or.inl ⟨e, h⟩
    · exact Or.inr ⟨e, h⟩
  · rintro (⟨e, h⟩ | ⟨e, h⟩)
    · exact ⟨e, Or.inl h⟩
    · exact ⟨e, Or.inr h⟩

/-- `c` is in the list of env `e`. (Concerns co_env.cpp:26-427, co_manager.cpp:85-435.) -/
def State.has (s : State) (c e : Nat) : Bool := match s.env e with
  | some o => decide (c ∈ o.queue)
  | none => false

attribute [local grind =] State.has

/-- What is known about accepted coroutines. (Concerns co_env.cpp:26-427, co_manager.cpp:85-435.) -/
structure Kept (s : State) (tr : List Ev) : Prop where
  inv : Inv s
  begun : ∀ c, c ∈ s.begun → Ran c tr
  ended : ∀ c e, Ev.ended c e ∈ tr → c ∈ s.begun
  stop : ∀ e o, s.env e = some o → o.st = .destroying → Ev.stopped e ∈ tr ∨ Ev.userStop e ∈ tr
  gone : ∀ e, e < s.next → s.env e = none → Ev.stopped e ∈ tr ∨ Ev.userStop e ∈ tr
  kept : ∀ c e, Ev.accepted c e ∈ tr → s.has c e = true ∨ Ev.ended c e ∈ tr ∨ Ev.stopped e ∈ tr ∨ Ev.userStop e ∈ tr
  known : ∀ c e, Ev.accepted c e ∈ tr → e < s.next
  started : ∀ c e o, Ev.accepted c e ∈ tr → s.env e = some o → o.noThread = false ∧ o.st ≠ .created

theorem kept_ended {s s' : State} {a : Act} {es tr : List Ev} (h : Kept s tr) (hs : step s a = some (s', es)) :
    ∀ c e, Ev.ended c e ∈ tr ++ es → c ∈ s'.begun := by
  have hi := inv_step h.inv hs
  obtain ⟨h0, h1, h2, h3, h4, h5, h7, h6⟩ := h
  have hleft := h0.left
  have hbound := h0.bound
  have hstarted := h0.started
  have htarget := h0.target
  cases a <;> crunch hs <;> (try dsimp only [State.put, State.at, State.add]) <;> grind

theorem kept_stop {s s' : State} {a : Act} {es tr : List Ev} (h : Kept s tr) (hs : step s a = some (s', es)) :
    ∀ e o, s'.env e = some o → o.st = .destroying → Ev.stopped e ∈ tr ++ es ∨ Ev.userStop e ∈ tr ++ es := by
  have hi := inv_step h.inv hs
  obtain ⟨h0, h1, h2, h3, h4, h5, h7, h6⟩ := h
  have hleft := h0.left
  have hbound := h0.bound
  have hstarted := h0.started
  have htarget := h0.target
  cases a <;> crunch hs <;> (try dsimp only [State.put, State.at, State.add]) <;> grind

theorem kept_gone {s s' : State} {a : Act} {es tr : List Ev} (h : Kept s tr) (hs : step s a = some (s', es)) :
    ∀ e, e < s'.next → s'.env e = none → Ev.stopped e ∈ tr ++ es ∨ Ev.userStop e ∈ tr ++ es := by
  have hi := inv_step h.inv hs
  obtain ⟨h0, h1, h2, h3, h4, h5, h7, h6⟩ := h
  have hleft := h0.left
  have hbound := h0.bound
  have hstarted := h0.started
  have htarget := h0.target
  cases a <;> crunch hs <;> (try dsimp only [State.put, State.at, State.add]) <;> grind

theorem kept_kept {s s' : State} {a : Act} {es tr : List Ev} (h : Kept s tr) (hs : step s a = some (s', es)) :
    ∀ c e, Ev.accepted c e ∈ tr ++ es → s'.has c e = true ∨ Ev.ended c e ∈ tr ++ es ∨
    Ev.stopped e ∈ tr ++ es ∨ Ev.userStop e ∈ tr ++ es := by
  have hi := inv_step h.inv hs
  obtain ⟨h0, h1, h2, h3, h4, h5, h7, h6⟩ := h
  have hleft := h0.left
  have hbound := h0.bound
  have hstarted := h0.started
  have htarget := h0.target
  cases a <;> crunch hs <;> (try dsimp only [State.put, State.at, State.add]) <;> grind

theorem kept_known {s s' : State} {a : Act} {es tr : List Ev} (h : Kept s tr) (hs : step s a = some (s', es)) :
    ∀ c e, Ev.accepted c e ∈ tr ++ es → e < s'.next := by
  have hi := inv_step h.inv hs
  obtain ⟨h0, h1, h2, h3, h4, h5, h7, h6⟩ := h
  have hleft := h0.left
  have hbound := h0.bound
  have hstarted := h0.started
  have htarget := h0.target
  cases a <;> crunch hs <;> (try dsimp only [State.put, State.at, State.add]) <;> grind

theorem kept_started {s s' : State} {a : Act} {es tr : List Ev} (h : Kept s tr) (hs : step s a = some (s', es)) :
    ∀ c e o, Ev.accepted c e ∈ tr ++ es → s'.env e = some o → o.noThread = false ∧ o.st ≠ .created := by
  have hi := inv_step h.inv hs
  obtain ⟨h0, h1, h2, h3, h4, h5, h7, h6⟩ := h
  have hleft := h0.left
  have hbound := h0.bound
  have hstarted := h0.started
  have htarget := h0.target
  cases a <;> crunch hs <;> (try dsimp only [State.put, State.at, State.add]) <;> grind

theorem kept_step {s s' : State} {a : Act} {es tr : List Ev} (h : Kept s tr) (hs : step s a = some (s', es)) :
    Kept s' (tr ++ es) := by
  refine ⟨inv_step h.inv hs, ?_, kept_ended h hs, kept_stop h hs, kept_gone h hs, kept_kept h hs, kept_known h hs,
    kept_started h hs⟩
  obtain ⟨-, h1, -⟩ := h
  intro c hc
  rw [ran_append]
  cases a
  case sched e d =>
    crunch hs
    rcases List.mem_cons.mp hc with rfl | hc
    · exact Or.inr ⟨e, by simp⟩
    · exact Or.inl (h1 c hc)
  all_goals crunch hs <;> exact Or.inl (h1 c hc)

theorem kept_runs {n : Nat} {as : List Act} {s : State} {tr : List Ev} (h : runs step (State.init n) as = some (s, tr)) :
    Kept s tr := by
  have := runs_hist Kept (fun s a s' es tr h hs => kept_step h hs) as (State.init n) s tr []
    (by refine ⟨inv_init n, ?_, ?_, ?_, ?_, ?_, ?_, ?_⟩ <;> simp [State.init]) h
  simpa using this

/-- **C64, the part of the first half that holds.** In every execution in which nobody stops env `e`, each coroutine it
accepted has been picked or is in its list, and the env's thread can pick it now. (Which of the ready ones is picked, and
that none starves, is C43-C46.) -/
theorem C64_accepted_runs_partial {n : Nat} {as : List Act} {s : State} {tr : List Ev} {c e : Nat}
    (h : runs step (State.init n) as = some (s, tr)) (hc : Ev.accepted c e ∈ tr) (h1 : Ev.stopped e ∉ tr)
    (h2 : Ev.userStop e ∉ tr) :
    (∃ e', Ev.ran c e' ∈ tr) ∨ ∃ s' es, step s (.sched e c) = some (s', es) ∧ Ev.ran c e ∈ es := by
  have hK := kept_runs h
  rcases hK.kept c e hc with hq | hq | hq | hq
  · right
    simp only [State.has] at hq
    split at hq
    · rename_i o ho
      have hd : o.st ≠ .destroying := fun hd => by rcases hK.stop e o ho hd with h | h <;> contradiction
      have hp : o.phase = .loop := by
        by_cases hp : o.phase = .loop
        · exact hp
        · exact absurd (hK.inv.left e o ho hp) hd
      obtain ⟨s1, s2⟩ := hK.started c e o hc ho
      have hg : o.phase = .loop ∧ o.noThread = false ∧ o.st ≠ .created ∧ o.st ≠ .destroying ∧ c ∈ o.queue :=
        ⟨hp, s1, s2, hd, by simpa using hq⟩
      exact ⟨_, _, by simp only [step, ho]; rw [if_pos hg], by simp⟩
    · simp at hq
  · left; exact hK.begun c (hK.ended c e hq)
  · contradiction
  · contradiction

/-- Two coroutines accepted, one picked, the other still to be picked. -/
example : (after 1 [.pick 0 10 0, .check 0, .assert 0, .push 0, .busy 0, .bind 1 11 0, .check 1, .assert 1, .push 1,
    .sched 0 10, .busy 1, .sched 0 11] 1).map (·.1) =
  some [.made 0, .chose 10 0, .accepted 10 0, .chose 11 0, .accepted 11 0, .switched 0, .ran 10 0, .switched 0, .ran 11 0] := by
  decide

end Verif.EnvLife
