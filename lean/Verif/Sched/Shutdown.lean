import Verif.Base.Lts

/-! # Destroying the manager (C91, C92, C93)

`~co_manager` (co_manager.cpp:407-411) asks every env to stop, waits for the manager's three background threads and lets the
members go. The interplay of four kinds of threads: the one that runs the destructor (`main`), the thread of
`clean_env_routine__` (`cleaner`), the scheduling threads of the envs, and other threads of the user that have an env of
their own because they called into the library (`current_env()`, co_manager.cpp:161-176).

Which objects still exist is part of the state; a use of an object that does not is an event of its own (`useEnv`, `useMan`).
Simplified: execution goes on after such a use. -/

namespace Verif.Shutdown

/-- Where the scheduling thread of an env is: in the loop of `start_schedule_routine__` or not yet there (co_env.cpp:388-413);
after the loop and `remove_all_ctx__` (415), about to publish `task_finished`; after `remove_env__`, the only subscriber, has
returned, still inside `pub` (416, co_event.h:46-53); at its end (418). -/
inductive Phase
  | loop | left | removed | ended
deriving DecidableEq, Repr

/-- The object: alive; its destructor is running and waits for `worker__` (co_env.h:66; the members declared behind it are
gone, `task_finished__` and the two managers declared before it are not); freed. -/
inductive Mem
  | alive | dying | freed
deriving DecidableEq, Repr

/-- A `co_env`. `conv = some t`: made from thread `t` (`create_env_from_this_thread`), `worker__` holds nothing;
`conv = none`: it has a thread of its own. `noThread`: `CO_ENV_FLAG_NO_SCHE_THREAD`. `told`: its state is `destroying`. (Concerns co_manager.cpp:87-411.) -/
structure Env where
  conv : Option Nat
  noThread : Bool
  told : Bool
  phase : Phase
  mem : Mem
deriving DecidableEq, Repr

/-- `co_env_factory::create_env` (co_env_factory.cpp:14-26, co_env.cpp:39-44). -/
def Env.own : Env := ⟨none, false, false, .loop, .alive⟩

/-- `create_env_from_this_thread` (co_env_factory.cpp:42-54, co_env.cpp:45-50). -/
def Env.ofThread (t : Nat) : Env := ⟨some t, true, false, .loop, .alive⟩

/-- The thread of `clean_env_routine__` (co_manager.cpp:197-227): before it has `normal_lock` (199); before the loop condition
(200); in `wait` (219); in the loop over the copy of the set (205-214), these are left; in the loop over `expired_set`
(221-224), these are left; in the destructor of an env with a thread (co_env_factory.cpp:34); behind the `delete`, before
`destroy_ctx(idle_ctx)` (35); at its end. -/
inductive Cleaner
  | start
  | top
  | waiting
  | stopping (todo : List Nat)
  | deleting (todo : List Nat)
  | joining (e : Nat) (todo : List Nat)
  | idle (e : Nat) (todo : List Nat)
  | ended
deriving DecidableEq, Repr

/-- Does the cleaner hold `normal_lock`? (Concerns co_manager.cpp:87-411.) -/
def Cleaner.locked : Cleaner → Bool
  | .start | .waiting | .ended => false
  | _ => true

/-- The thread that will run `~co_manager`: not yet; in `wait_background_task__` (co_manager.cpp:410); behind it. -/
inductive Main
  | running | waiting | done
deriving DecidableEq, Repr

/-- Who uses an env: a thread of the user or the library by its number, or the env's own thread. (Concerns co_manager.cpp:87-411.) -/
inductive Who
  | thread (t : Nat)
  | worker (e : Nat)
deriving DecidableEq, Repr

/-- The thread that destroys the manager. (Concerns co_manager.cpp:87-411.) -/
abbrev main : Nat := 0

/-- The thread of `clean_env_routine__`. (Concerns co_manager.cpp:87-411.) -/
abbrev cleaner : Nat := 1

/-- The whole. `normal`, `expired`: the two sets (co_manager.h:30-32), in the order of the pointers. `cur`: `current_env__` of
each thread that is not a scheduling thread of an env (co_env.cpp:30). `signal`: `cv_expired_env` was notified while the
cleaner waits. -/
structure State where
  env : Nat → Option Env
  next : Nat
  normal : List Nat
  expired : List Nat
  cur : Nat → Option Nat
  cl : Cleaner
  signal : Bool
  cleanUp : Bool
  mp : Main

/-- The manager has just been made (co_manager.cpp:146-151). -/
def State.init : State := ⟨fun _ => none, 0, [], [], fun _ => none, .start, false, false, .running⟩

/-- Events. `made`, `told` (asked to stop), `expire` (moved to `expired_set`), `dropped`: taken out of `normal_set` by
`normal_set.clear()` (co_manager.cpp:215). `freed`: `delete env` is complete. `useEnv w e`: `w` touched the freed env `e`.
`useMan e`: the thread of env `e` (`none`: a thread of the user) touched the manager after it was destroyed. `gone`:
`~co_manager` has returned. -/
inductive Ev
  | made (e : Nat)
  | told (e : Nat)
  | expire (e : Nat)
  | dropped (e : Nat)
  | freed (e : Nat)
  | useEnv (w : Who) (e : Nat)
  | useMan (w : Who)
  | gone
deriving DecidableEq, Repr

/-- Replace the object of env `e`. (Concerns co_manager.cpp:87-411.) -/
def State.put (s : State) (e : Nat) (o : Env) : State := { s with env := upd s.env e (some o) }

/-- A new env from thread `t`: it becomes the thread's current one and a member of the set (co_manager.cpp:161-167).
Simplified: it is the last of the set. -/
def State.convert (s : State) (t : Nat) : State :=
  { s.put s.next (.ofThread t) with
    next := s.next + 1, normal := s.normal ++ [s.next], cur := upd s.cur t (some s.next) }

/-- `CoPreemptGuard()` on thread `t`, which holds `normal_lock` or can get it: `CoCurrentEnv()->schedule_lock()` is written
(co_define.h:118, 127, co_manager.cpp:169-176, co_env.cpp:824-833). A thread without an env gets one. -/
def State.guard (s : State) (t : Nat) : State × List Ev :=
  match s.cur t with
  | none => (s.convert t, [.made s.next])
  | some e => match s.env e with
    | some o => (s, if o.mem = .alive then [] else [.useEnv (.thread t) e])
    | none => (s, [])

/-- `remove_env__` (co_manager.cpp:153-159). -/
def State.remove (s : State) (e : Nat) : State :=
  { s with normal := s.normal.filter (· != e), expired := s.expired ++ [e], signal := true }

/-- Is `CO_ENV_FLAG_NO_SCHE_THREAD` set on env `e`? (Concerns co_manager.cpp:87-411.) -/
def State.noTh (s : State) (e : Nat) : Bool := match s.env e with
  | some o => o.noThread
  | none => false

/-- The loop of `set_clean_up__` (co_manager.cpp:180-192) by thread `main`: every env without a thread is moved to `expired_set`,
every other is asked to stop. -/
def State.cleaned (s : State) : State := { s with
  cleanUp := true, signal := true, mp := .waiting
  normal := s.normal.filter (fun e => !s.noTh e), expired := s.expired ++ s.normal.filter s.noTh
  env := fun e => if e ∈ s.normal.filter (fun e => !s.noTh e) then (s.env e).map (fun o => { o with told := true })
    else s.env e }

/-- What that loop does to the envs. (Concerns co_manager.cpp:87-411.) -/
def State.cleanedEv (s : State) : List Ev :=
  (s.normal.filter s.noTh).map Ev.expire ++ (s.normal.filter (fun e => !s.noTh e)).map Ev.told

/-- `set_clean_up__` (co_manager.cpp:178-195) by thread `main`. `stop_schedule` ends in `wake_up` and so needs a current env of
the caller (co_env.cpp:349-357, 660-665). Simplified: one step. It holds `normal_lock`, so nobody sees the sets in between,
and a thread that was asked to stop can only leave its loop meanwhile, which it can also do afterwards. -/
def State.setCleanUp (s : State) : State × List Ev :=
  if s.normal.filter (fun e => !s.noTh e) = [] then (s.cleaned, s.cleanedEv)
  else ((s.cleaned.guard main).1, s.cleanedEv ++ (s.cleaned.guard main).2)

/-- Choices. `create`: somebody creates an env with a thread. `use t`: thread `t` calls into the library. `threadEnd t`: it ends.
`startHere t`: it calls `schedule_in_this_thread`. `stop e`: the monitor stops the env. `leave`, `expire`, `finish`: the thread
of the env goes on. `clean`: the cleaner goes on. `spurious`: it wakes without a notification. `destroy`: the destructor of the
manager begins. `joined`: it ends. (Concerns co_manager.cpp:87-411.) -/
inductive Act
  | create
  | use (t : Nat)
  | threadEnd (t : Nat)
  | startHere (t : Nat)
  | stop (e : Nat)
  | leave (e : Nat)
  | expire (e : Nat)
  | finish (e : Nat)
  | clean
  | spurious
  | destroy
  | joined
deriving DecidableEq, Repr

/-- Who runs the scheduling loop of an env. (Concerns co_manager.cpp:87-411.) -/
def Env.runner (o : Env) (e : Nat) : Who := match o.conv with
  | some t => .thread t
  | none => .worker e

/-- One step of the cleaner.
- `top`: co_manager.cpp:200-202. `stopping`: 205-215; the envs that are left when the loop is over are dropped.
- `deleting`: `destroy_env` (co_env_factory.cpp:28-34). The destructor of an env with a thread waits in `~future` for that
  thread, which `launch::async` makes it do; that of a converted env does not.
- `idle`: `destroy_ctx(idle_ctx)` is behind a preemption guard (co_ctx_factory.cpp:34-45); the guard in `destroy_stack`
  (co_stack_factory.cpp:35-43) finds the same env. -/
def cleanStep (s : State) : Option (State × List Ev) := match s.cl with
  | .start => some ({ s with cl := .top }, [])
  | .waiting => if s.signal then some ({ s with cl := .deleting s.expired, signal := false }, []) else none
  | .top =>
    if s.cleanUp then
      if s.normal = [] then some ({ s with cl := .ended }, []) else some ({ s with cl := .stopping s.normal }, [])
    else some ({ s with cl := .waiting, signal := false }, [])
  | .stopping [] => some ({ s with normal := [], cl := .deleting s.expired }, s.normal.map Ev.dropped)
  | .stopping (e :: es) => match s.env e with
    | some o =>
      if o.noThread then some ({ s.remove e with cl := .stopping es }, [.expire e])
      else
        let s1 := s.put e { o with told := true }
        some ({ (s1.guard cleaner).1 with cl := .stopping es }, .told e :: (s1.guard cleaner).2)
    | none => none
  | .deleting [] => some ({ s with expired := [], cl := .top }, [])
  | .deleting (e :: es) => match s.env e with
    | some o => match o.conv with
      | none => some ({ s.put e { o with mem := .dying } with cl := .joining e es }, [])
      | some _ => some ({ s.put e { o with mem := .freed } with cl := .idle e es }, [.freed e])
    | none => none
  | .joining e es => match s.env e with
    | some o => if o.phase = .ended then some ({ s.put e { o with mem := .freed } with cl := .idle e es }, [.freed e]) else none
    | none => none
  | .idle _ es => some ({ (s.guard cleaner).1 with cl := .deleting es }, (s.guard cleaner).2)
  | .ended => none

/-- One step. `normal_lock` is free unless the cleaner has it.
- `create`: `create_env`, which asserts that clean-up has not begun (co_manager.cpp:87-103).
- `use`: `current_env()` and an access to what it returns. Simplified: not by `main` while it is in the destructor.
- `startHere`: co_env.cpp:420-427, 391.
- `leave`: the loop condition (395). `expire`: `pub` calls `remove_env__` (416). `finish`: the rest of `pub`, which is the next
  iteration and the unlocking of `mu_cb_list__`, and line 417.
- `joined`: co_manager.cpp:410; simplified: of the three background threads only the cleaner is waited for (for the timer
  thread see C85). -/
def step (s : State) : Act → Option (State × List Ev)
  | .create =>
    if s.cl.locked = false ∧ s.cleanUp = false then
      some ({ s.put s.next .own with next := s.next + 1, normal := s.normal ++ [s.next] }, [.made s.next])
    else none
  | .use t =>
    if t = cleaner ∨ (t = main ∧ s.mp = .waiting) then none
    else match s.cur t with
      | none =>
        if s.mp = .done then some (s, [.useMan (.thread t)])
        else if s.cl.locked = false then some (s.guard t) else none
      | some _ => some (s.guard t)
  | .threadEnd t =>
    if t = cleaner ∨ t = main then none
    else match s.cur t with
      | some e => if s.noTh e then some ({ s with cur := upd s.cur t none }, []) else none
      | none => none
  | .startHere t =>
    if t = cleaner ∨ t = main ∧ s.mp = .waiting then none
    else match s.cur t with
      | some e => match s.env e with
        | some o =>
          if o.mem ≠ .alive then some (s, [.useEnv (.thread t) e])
          else if o.noThread then some (s.put e { o with noThread := false }, []) else none
        | none => none
      | none => none
  | .stop e => match s.env e with
    | some o =>
      if e ∈ s.normal ∧ o.noThread = false ∧ s.cl.locked = false ∧ s.mp ≠ .done then
        some (s.put e { o with told := true }, [.told e])
      else none
    | none => none
  | .leave e => match s.env e with
    | some o =>
      if o.phase = .loop ∧ o.noThread = false ∧ o.told then
        some (s.put e { o with phase := .left }, if o.mem = .alive then [] else [.useEnv (o.runner e) e])
      else none
    | none => none
  | .expire e => match s.env e with
    | some o =>
      if o.phase = .left ∧ s.cl.locked = false then
        if s.mp = .done then some (s.put e { o with phase := .removed }, [.useMan (o.runner e)])
        else some ((s.put e { o with phase := .removed }).remove e, [.expire e])
      else none
    | none => none
  | .finish e => match s.env e with
    | some o =>
      if o.phase = .removed then
        let s1 := s.put e { o with phase := .ended }
        some (match o.conv with
          | some t => { s1 with cur := upd s1.cur t none }
          | none => s1,
          if o.mem = .freed then [.useEnv (o.runner e) e] else [])
      else none
    | none => none
  | .clean => cleanStep s
  | .spurious => match s.cl with
    | .waiting => some ({ s with cl := .deleting s.expired }, [])
    | _ => none
  | .destroy => match s.cur main with
    | some e => if s.mp = .running ∧ s.cl.locked = false ∧ s.noTh e then some s.setCleanUp else none
    | none => if s.mp = .running ∧ s.cl.locked = false then some s.setCleanUp else none
  | .joined =>
    if s.mp = .waiting ∧ s.cl = .ended then some ({ s with mp := .done }, [.gone]) else none

/-! ## Invariant -/

/-- What the cleaner knows about the envs it still has to look at. (Concerns co_manager.cpp:87-411.) -/
def Cleaner.Ok (s : State) : Cleaner → Prop
  | .stopping todo => todo.Nodup ∧ (∀ e ∈ todo, e ∈ s.normal) ∧ s.cleanUp = true ∧
      ∀ e ∈ s.expired, ∀ o, s.env e = some o → o.mem = .alive
  | .deleting todo => todo.Nodup ∧ (∀ e ∈ todo, e ∈ s.expired ∧ ∀ o, s.env e = some o → o.mem = .alive) ∧
      ∀ e o, e ∈ s.expired → s.env e = some o → e ∉ todo → o.mem = .freed
  | .joining x todo => (x :: todo).Nodup ∧ x ∈ s.expired ∧ (∀ o, s.env x = some o → o.mem = .dying ∧ o.conv = none) ∧
      (∀ e ∈ todo, e ∈ s.expired ∧ ∀ o, s.env e = some o → o.mem = .alive) ∧
      ∀ e o, e ∈ s.expired → s.env e = some o → e ≠ x → e ∉ todo → o.mem = .freed
  | .idle x todo => (x :: todo).Nodup ∧ x ∈ s.expired ∧ (∀ o, s.env x = some o → o.mem = .freed) ∧
      (∀ e ∈ todo, e ∈ s.expired ∧ ∀ o, s.env e = some o → o.mem = .alive) ∧
      ∀ e o, e ∈ s.expired → s.env e = some o → e ∉ todo → o.mem = .freed
  | _ => ∀ e ∈ s.expired, ∀ o, s.env e = some o → o.mem = .alive

/-- Facts about every reachable state. (Concerns co_manager.cpp:87-411.) -/
structure Inv (s : State) : Prop where
  bound : ∀ e o, s.env e = some o → e < s.next
  curS : ∀ t e, s.cur t = some e → (s.env e).isSome
  cur : ∀ t e o, s.cur t = some e → s.env e = some o → o.conv = some t
  curCl : ∀ e o, s.env e = some o → o.conv = some cleaner → o.noThread = true
  ndN : s.normal.Nodup
  ndX : s.expired.Nodup
  disj : ∀ e, e ∈ s.normal → e ∉ s.expired
  normalS : ∀ e, e ∈ s.normal → (s.env e).isSome
  normal : ∀ e o, e ∈ s.normal → s.env e = some o → o.mem = .alive ∧ (s.mp ≠ .done → o.phase = .loop ∨ o.phase = .left)
  noTh : ∀ e o, s.env e = some o → o.noThread = true → o.told = false ∧ o.phase = .loop ∧ o.conv ≠ none
  told : ∀ e o, s.env e = some o → o.phase ≠ .loop → o.told = true
  exp : ∀ e o, s.env e = some o → e ∈ s.expired ∨ o.mem ≠ .alive →
    (o.phase = .removed ∨ o.phase = .ended) ∨ (o.conv ≠ none ∧ o.told = false ∧ o.phase = .loop)
  mem : ∀ e, e ∈ s.expired → (s.env e).isSome
  own : ∀ e o, s.env e = some o → o.conv = none → o.mem = .freed → o.phase = .ended
  dying : ∀ e o, s.env e = some o → o.mem = .dying → o.conv = none
  sig : s.cleanUp = true → s.cl = .waiting → s.signal = true
  mp : s.cleanUp = true ↔ s.mp ≠ .running
  done : s.mp = .done → s.cl = .ended
  ended : s.cl = .ended → s.cleanUp = true
  clN : ∀ e o, s.cleanUp = false → s.env e = some o → o.noThread = true → e ∈ s.normal
  ok : s.cl.Ok s

attribute [local grind =] State.put State.convert State.remove Env.own Env.ofThread Cleaner.Ok Cleaner.locked upd_apply
  State.noTh

/-- Take a step apart. -/
local macro "crunch" hs:ident : tactic => `(tactic| (
  simp only [step, cleanStep] at $hs:ident
  repeat' split at $hs:ident
  all_goals first | (simp only [reduceCtorEq] at $hs:ident; done) | skip
  all_goals simp only [Option.some.injEq, Prod.mk.injEq] at $hs:ident
  all_goals (have e1 := And.left $hs:ident; have e2 := And.right $hs:ident; clear $hs:ident; subst e1; subst e2)))

theorem inv_init : Inv State.init := by
  constructor <;> simp [State.init, Cleaner.Ok]

theorem nodup_snoc {l : List Nat} {a : Nat} (h : l.Nodup) (ha : a ∉ l) : (l ++ [a]).Nodup := by
  rw [List.nodup_append]; refine ⟨h, by simp, ?_⟩; intro x hx y hy; simp at hy; subst hy; rintro rfl; exact ha hx

theorem next_fresh {s : State} (h : Inv s) : s.env s.next = none ∧ s.next ∉ s.normal ∧ s.next ∉ s.expired := by
  have h0 : s.env s.next = none := by
    cases hh : s.env s.next with
    | none => rfl
    | some o => exact absurd (h.bound _ _ hh) (by omega)
  refine ⟨h0, fun hm => ?_, fun hm => ?_⟩
  · have := h.normalS _ hm; simp [h0] at this
  · have := h.mem _ hm; simp [h0] at this

theorem inv_convert {s : State} (h : Inv s) (t : Nat) : Inv (s.convert t) := by
  obtain ⟨f1, f2, f3⟩ := next_fresh h
  obtain ⟨h1, h2, h3, h4, h5, h6, h7, h8, h9, h10, h11, h12, h13, h14, h15, h16, h17, h18, h19, h21, h20⟩ := h
  constructor <;> dsimp only [State.convert, State.put] <;> try assumption
  case ndN => exact nodup_snoc h5 f2
  case ok =>
    cases hc : s.cl <;> rw [hc] at h20 <;> simp only [Cleaner.Ok] at h20 ⊢ <;> grind
  all_goals grind

theorem inv_guard {s : State} (h : Inv s) (t : Nat) : Inv (s.guard t).1 := by
  unfold State.guard
  split
  · exact inv_convert h t
  · split <;> exact h

theorem guard_cl (s : State) (t : Nat) : (s.guard t).1.cl = s.cl := by
  unfold State.guard
  split
  · rfl
  · split <;> rfl

theorem guard_cleanUp (s : State) (t : Nat) : (s.guard t).1.cleanUp = s.cleanUp := by
  unfold State.guard
  split
  · rfl
  · split <;> rfl

/-- The part of `set_clean_up__` before the guard of `wake_up`. -/
theorem inv_clean1 {s : State} (h : Inv s) (hr : s.mp = .running) (hl : s.cl.locked = false) :
    Inv s.cleaned := by
  obtain ⟨h1, h2, h3, h4, h5, h6, h7, h8, h9, h10, h11, h12, h13, h14, h15, h16, h17, h18, h19, h21, h20⟩ := h
  have hE : ∀ (e : Nat) (o : Env), (if e ∈ s.normal.filter (fun e => !s.noTh e) then (s.env e).map (fun o => { o with told := true })
        else s.env e) = some o → ∃ o', s.env e = some o' ∧ o.conv = o'.conv ∧ o.noThread = o'.noThread ∧
          o.phase = o'.phase ∧ o.mem = o'.mem ∧
          ((o.told = o'.told ∧ ¬ (e ∈ s.normal ∧ o'.noThread = false)) ∨
            o.told = true ∧ e ∈ s.normal ∧ o'.noThread = false) := by
    intro e o ho
    cases hh : s.env e with
    | none => simp [hh] at ho
    | some o' =>
      simp only [hh, Option.map_some, List.mem_filter, State.noTh] at ho
      by_cases hc : e ∈ s.normal ∧ (!(o'.noThread)) = true
      · rw [if_pos hc] at ho; cases ho; exact ⟨_, rfl, rfl, rfl, rfl, rfl, Or.inr ⟨rfl, by simpa using hc⟩⟩
      · rw [if_neg hc] at ho; cases ho; exact ⟨_, rfl, rfl, rfl, rfl, rfl, Or.inl ⟨rfl, by simpa using hc⟩⟩
  have hS : ∀ e, (s.env e).isSome → (if e ∈ s.normal.filter (fun e => !s.noTh e) then
        (s.env e).map (fun o => { o with told := true }) else s.env e).isSome := by
    intro e he; split <;> simpa using he
  have hN : ∀ e o, s.env e = some o → s.noTh e = o.noThread := by intro e o ho; simp [State.noTh, ho]
  constructor <;> dsimp only [State.cleaned]
  case ndN => exact h5.filter _
  case ndX =>
    rw [List.nodup_append]
    refine ⟨h6, h5.filter _, ?_⟩
    intro a ha b hb; simp only [List.mem_filter] at hb; rintro rfl; exact h7 _ hb.1 ha
  case disj => intro e he hx; simp only [List.mem_append, List.mem_filter] at he hx; grind
  case mp => simp
  case ok =>
    have : ∀ e ∈ s.expired, ∀ o, s.env e = some o → o.mem = .alive := by
      cases hc : s.cl <;> rw [hc] at h20 hl <;> simp only [Cleaner.Ok, Cleaner.locked, reduceCtorEq] at h20 hl <;> exact h20
    cases hc : s.cl <;> rw [hc] at hl <;> simp only [Cleaner.Ok, Cleaner.locked, reduceCtorEq] at hl ⊢
    all_goals
      intro e he o ho; obtain ⟨o', k⟩ := hE e o ho
      simp only [List.mem_append, List.mem_filter] at he
      grind
  case mem => intro e he; refine hS e ?_; simp only [List.mem_append, List.mem_filter] at he; grind
  case normalS => intro e he; refine hS e ?_; simp only [List.mem_filter] at he; grind
  case curS => intro t e he; exact hS e (h2 t e he)
  case exp =>
    intro e o ho hx; obtain ⟨o', k⟩ := hE e o ho
    simp only [List.mem_append, List.mem_filter] at hx
    grind
  case normal =>
    intro e o he ho; obtain ⟨o', k⟩ := hE e o ho
    simp only [List.mem_filter] at he
    grind
  case sig => simp
  case done => simp
  case ended => simp
  case clN => simp
  case bound => intro e o ho; obtain ⟨o', k⟩ := hE e o ho; grind
  case cur => intro t e o hc ho; obtain ⟨o', k⟩ := hE e o ho; grind
  case curCl => intro e o ho hc; obtain ⟨o', k⟩ := hE e o ho; grind
  all_goals intro e o ho; obtain ⟨o', k⟩ := hE e o ho; grind

theorem inv_setCleanUp {s : State} (h : Inv s) (hr : s.mp = .running) (hl : s.cl.locked = false) :
    Inv s.setCleanUp.1 := by
  unfold State.setCleanUp
  split
  · exact inv_clean1 h hr hl
  · exact inv_guard (inv_clean1 h hr hl) main

/-- An env changes and nothing else; it stays what it was for the cleaner. -/
theorem inv_put {s : State} (h : Inv s) {e : Nat} {o o' : Env} (he : s.env e = some o) (hc : o'.conv = o.conv)
    (hm : o'.mem = o.mem) (hn : o'.noThread = true → o'.told = false ∧ o'.phase = .loop ∧ o'.conv ≠ none)
    (ht : o'.phase ≠ .loop → o'.told = true) (hcl : o'.conv = some cleaner → o'.noThread = true)
    (hp : s.mp ≠ .done → e ∈ s.normal → o'.phase = .loop ∨ o'.phase = .left)
    (hx : e ∈ s.expired ∨ o.mem ≠ .alive →
      (o'.phase = .removed ∨ o'.phase = .ended) ∨ (o'.conv ≠ none ∧ o'.told = false ∧ o'.phase = .loop))
    (ho : o'.conv = none → o'.mem = .freed → o'.phase = .ended) (hq : o'.noThread = true → o.noThread = true := by simp) :
    Inv (s.put e o') := by
  obtain ⟨h1, h2, h3, h4, h5, h6, h7, h8, h9, h10, h11, h12, h13, h14, h15, h16, h17, h18, h19, h21, h20⟩ := h
  constructor <;> dsimp only [State.put] <;> try assumption
  case ok => cases hc : s.cl <;> rw [hc] at h20 <;> simp only [Cleaner.Ok] at h20 ⊢ <;> grind
  all_goals grind

theorem inv_remove {s : State} (h : Inv s) {e : Nat} {o : Env} (he : s.env e = some o) (hm : o.mem = .alive)
    (hx : (o.phase = .removed ∨ o.phase = .ended) ∨ (o.conv ≠ none ∧ o.told = false ∧ o.phase = .loop))
    (hn : e ∉ s.expired) {todo : List Nat} (hc : s.cl = .stopping todo) (hd : e ∉ todo) : Inv (s.remove e) := by
  obtain ⟨h1, h2, h3, h4, h5, h6, h7, h8, h9, h10, h11, h12, h13, h14, h15, h16, h17, h18, h19, h21, h20⟩ := h
  constructor <;> dsimp only [State.remove] <;> try assumption
  case ndN => exact h5.filter _
  case ndX => exact nodup_snoc h6 hn
  case ok => rw [hc] at h20 ⊢; simp only [Cleaner.Ok] at h20 ⊢; grind
  all_goals grind

/-- The current env of a thread is forgotten. -/
theorem inv_forget {s : State} (h : Inv s) (t : Nat) : Inv { s with cur := upd s.cur t none } := by
  obtain ⟨h1, h2, h3, h4, h5, h6, h7, h8, h9, h10, h11, h12, h13, h14, h15, h16, h17, h18, h19, h21, h20⟩ := h
  constructor <;> dsimp only <;> try assumption
  all_goals grind

/-- The cleaner goes on, with sets that are smaller than before. -/
theorem inv_cl {s : State} (h : Inv s) {n x : List Nat} {c : Cleaner} {sg : Bool}
    (hn : n = s.normal ∨ n = [] ∧ s.cleanUp = true) (hx : x = s.expired ∨ x = [])
    (hw : c = .waiting → s.cleanUp = true → sg = true) (he : c = .ended → s.cleanUp = true) (hl : s.cl ≠ .ended)
    (ho : c.Ok { s with normal := n, expired := x, cl := c, signal := sg }) :
    Inv { s with normal := n, expired := x, cl := c, signal := sg } := by
  obtain ⟨h1, h2, h3, h4, h5, h6, h7, h8, h9, h10, h11, h12, h13, h14, h15, h16, h17, h18, h19, h21, h20⟩ := h
  constructor <;> dsimp only <;> first | assumption | grind

theorem inv_clean {s s' : State} {es : List Ev} (h : Inv s) (hs : cleanStep s = some (s', es)) : Inv s' := by
  have hok := h.ok
  cases hcl : s.cl with
  | start =>
    simp only [cleanStep, hcl, Option.some.injEq, Prod.mk.injEq] at hs
    obtain ⟨rfl, rfl⟩ := hs
    rw [hcl] at hok
    exact inv_cl h (Or.inl rfl) (Or.inl rfl) (by simp) (by simp) (by simp [hcl]) hok
  | ended => simp [cleanStep, hcl] at hs
  | waiting =>
    simp only [cleanStep, hcl] at hs
    split at hs
    · simp only [Option.some.injEq, Prod.mk.injEq] at hs
      obtain ⟨rfl, rfl⟩ := hs
      rw [hcl] at hok
      exact inv_cl h (Or.inl rfl) (Or.inl rfl) (by simp) (by simp) (by simp [hcl]) ⟨h.ndX, fun e he => ⟨he, hok e he⟩, fun e _ he _ hn => absurd he hn⟩
    · simp at hs
  | top =>
    simp only [cleanStep, hcl] at hs
    rw [hcl] at hok
    split at hs
    · rename_i hc
      split at hs
      · simp only [Option.some.injEq, Prod.mk.injEq] at hs
        obtain ⟨rfl, rfl⟩ := hs
        exact inv_cl h (Or.inl rfl) (Or.inl rfl) (by simp) (by simp [hc]) (by simp [hcl]) hok
      · simp only [Option.some.injEq, Prod.mk.injEq] at hs
        obtain ⟨rfl, rfl⟩ := hs
        exact inv_cl h (Or.inl rfl) (Or.inl rfl) (by simp) (by simp) (by simp [hcl])
          ⟨h.ndN, fun e he => he, hc, hok⟩
    · rename_i hc
      simp only [Option.some.injEq, Prod.mk.injEq] at hs
      obtain ⟨rfl, rfl⟩ := hs
      exact inv_cl h (Or.inl rfl) (Or.inl rfl) (by simp [hc]) (by simp) (by simp [hcl]) hok
  | stopping todo =>
    rw [hcl] at hok
    obtain ⟨k1, k2, k3, k4⟩ := hok
    cases todo with
    | nil =>
      simp only [cleanStep, hcl, Option.some.injEq, Prod.mk.injEq] at hs
      obtain ⟨rfl, rfl⟩ := hs
      exact inv_cl h (Or.inr ⟨rfl, k3⟩) (Or.inl rfl) (by simp) (by simp) (by simp [hcl]) ⟨h.ndX, fun e he => ⟨he, k4 e he⟩, fun e _ he _ hn => absurd he hn⟩
    | cons e es =>
      simp only [cleanStep, hcl] at hs
      split at hs
      · rename_i o ho
        have hen := k2 e (by simp)
        split at hs
        · rename_i hn
          simp only [Option.some.injEq, Prod.mk.injEq] at hs
          obtain ⟨rfl, rfl⟩ := hs
          have h' : Inv { s with cl := .stopping es } :=
            inv_cl h (Or.inl rfl) (Or.inl rfl) (by simp) (by simp) (by simp [hcl])
              ⟨(List.nodup_cons.mp k1).2, fun x hx => k2 x (by simp [hx]), k3, k4⟩
          have hq := h.noTh e o ho hn
          exact inv_remove h' ho (h.normal e o hen ho).1 (Or.inr ⟨hq.2.2, hq.1, hq.2.1⟩) (h.disj e hen) rfl
            (List.nodup_cons.mp k1).1
        · rename_i hn
          simp only [Option.some.injEq, Prod.mk.injEq] at hs
          obtain ⟨rfl, rfl⟩ := hs
          have h1 : Inv (s.put e { o with told := true }) := by
            refine inv_put h ho rfl rfl (by simp [hn]) (by simp) ?_ (fun hd he => (h.normal e o he ho).2 hd) ?_ (h.own e o ho)
            · intro hc; exact absurd (h.curCl e o ho hc) hn
            · rintro (hx | hx)
              · exact absurd hx (h.disj e hen)
              · exact absurd (h.normal e o hen ho).1 hx
          have h2 := inv_guard h1 cleaner
          have hc2 : ((s.put e { o with told := true }).guard cleaner).1.cl = .stopping (e :: es) := by
            rw [guard_cl]; exact hcl
          have hok2 := h2.ok
          rw [hc2] at hok2
          obtain ⟨m1, m2, m3, m4⟩ := hok2
          exact inv_cl h2 (Or.inl rfl) (Or.inl rfl) (by simp) (by simp) (by simp [hc2])
            ⟨(List.nodup_cons.mp m1).2, fun x hx => m2 x (by simp [hx]), m3, m4⟩
      · simp at hs
  | deleting todo =>
    rw [hcl] at hok
    obtain ⟨k1, k2, k2'⟩ := hok
    cases todo with
    | nil =>
      simp only [cleanStep, hcl, Option.some.injEq, Prod.mk.injEq] at hs
      obtain ⟨rfl, rfl⟩ := hs
      exact inv_cl h (Or.inl rfl) (Or.inr rfl) (by simp) (by simp) (by simp [hcl]) (by simp [Cleaner.Ok])
    | cons e es =>
      obtain ⟨h1, h2, h3, h4, h5, h6, h7, h8, h9, h10, h11, h12, h13, h14, h15, h16, h17, h18, h19, h21, h20⟩ := h
      have hx := (k2 e (by simp)).1
      simp only [List.nodup_cons] at k1
      simp only [cleanStep, hcl] at hs
      repeat' split at hs
      all_goals simp only [Option.some.injEq, Prod.mk.injEq, reduceCtorEq] at hs
      all_goals obtain ⟨rfl, rfl⟩ := hs
      all_goals constructor <;> dsimp only [State.put] <;> try assumption
      all_goals grind
  | joining e es =>
    rw [hcl] at hok
    obtain ⟨k1, k2, k3, k4, k5⟩ := hok
    obtain ⟨h1, h2, h3, h4, h5, h6, h7, h8, h9, h10, h11, h12, h13, h14, h15, h16, h17, h18, h19, h21, h20⟩ := h
    simp only [List.nodup_cons] at k1
    simp only [cleanStep, hcl] at hs
    repeat' split at hs
    all_goals simp only [Option.some.injEq, Prod.mk.injEq, reduceCtorEq] at hs
    all_goals obtain ⟨rfl, rfl⟩ := hs
    all_goals constructor <;> dsimp only [State.put] <;> try assumption
    all_goals grind
  | idle e es =>
    simp only [cleanStep, hcl, Option.some.injEq, Prod.mk.injEq] at hs
    obtain ⟨rfl, rfl⟩ := hs
    have h2 := inv_guard h cleaner
    have hc2 : (s.guard cleaner).1.cl = .idle e es := by rw [guard_cl]; exact hcl
    have hok2 := h2.ok
    rw [hc2] at hok2
    obtain ⟨m1, m2, m3, m4, m5⟩ := hok2
    exact inv_cl h2 (Or.inl rfl) (Or.inl rfl) (by simp) (by simp) (by simp [hc2]) ⟨(List.nodup_cons.mp m1).2, m4, m5⟩

theorem inv_step {s s' : State} {a : Act} {es : List Ev} (h : Inv s) (hs : step s a = some (s', es)) : Inv s' := by
  cases a
  case use t =>
    simp only [step] at hs
    repeat' split at hs
    all_goals simp only [Option.some.injEq, reduceCtorEq] at hs
    · cases hs; exact h
    · have := congrArg Prod.fst hs; dsimp only at this; subst this; exact inv_guard h t
    · have := congrArg Prod.fst hs; dsimp only at this; subst this; exact inv_guard h t
  case destroy =>
    simp only [step] at hs
    repeat' split at hs
    all_goals simp only [Option.some.injEq, reduceCtorEq] at hs
    · rename_i hc
      have := congrArg Prod.fst hs; dsimp only at this; subst this; exact inv_setCleanUp h hc.1 hc.2.1
    · rename_i hc
      have := congrArg Prod.fst hs; dsimp only at this; subst this; exact inv_setCleanUp h hc.1 hc.2
  case clean => exact inv_clean h hs
  case create =>
    obtain ⟨f1, f2, f3⟩ := next_fresh h
    obtain ⟨h1, h2, h3, h4, h5, h6, h7, h8, h9, h10, h11, h12, h13, h14, h15, h16, h17, h18, h19, h21, h20⟩ := h
    crunch hs
    constructor <;> dsimp only [State.put] <;> try assumption
    case ndN => exact nodup_snoc h5 f2
    case ok =>
      cases hc : s.cl <;> rw [hc] at h20 <;> simp only [Cleaner.Ok] at h20 ⊢ <;> grind
    all_goals grind
  case threadEnd t => crunch hs; exact inv_forget h t
  case startHere t =>
    crunch hs
    · exact h
    · rename_i h1 _ e he _ o ho h2 h3
      refine inv_put h ho rfl rfl (by simp) (h.told e o ho) ?_ (fun hd hm => (h.normal e o hm ho).2 hd) (h.exp e o ho)
        (h.own e o ho)
      intro hc; have a2 := h.cur _ _ _ he ho; grind
  case stop e =>
    crunch hs
    rename_i o ho hc
    refine inv_put h ho rfl rfl (by simp [hc.2.1]) (by simp) ?_ (fun hd he => (h.normal e o he ho).2 hd) ?_ (h.own e o ho)
    · intro hc'; exact absurd (h.curCl e o ho hc') (by simp [hc.2.1])
    · rintro (hx | hx)
      · exact absurd hx (h.disj e hc.1)
      · exact absurd (h.normal e o hc.1 ho).1 hx
  case leave e =>
    crunch hs
    all_goals
      rename_i o ho hc hm
      refine inv_put h ho rfl rfl (by simp [hc.2.1]) (by simp [hc.2.2]) ?_ (by simp) ?_ ?_
      · intro hc'; exact absurd (h.curCl e o ho hc') (by simp [hc.2.1])
      · intro hx; have := h.exp e o ho hx; grind
      · intro hv hf; have := h.own e o ho hv hf; grind
  case expire e =>
    crunch hs
    · rename_i o ho hc hd
      have hno : o.noThread = false := by
        cases hn : o.noThread with
        | false => rfl
        | true => have := (h.noTh e o ho hn).2.1; grind
      refine inv_put h ho rfl rfl (by simp [hno]) (fun _ => h.told e o ho (by simp [hc.1])) ?_ (by simp [hd]) (by simp) ?_
      · intro hc'; exact absurd (h.curCl e o ho hc') (by simp [hno])
      · intro hv hf; have := h.own e o ho hv hf; grind
    · rename_i o ho hc hd
      obtain ⟨h1, h2, h3, h4, h5, h6, h7, h8, h9, h10, h11, h12, h13, h14, h15, h16, h17, h18, h19, h21, h20⟩ := h
      have hx : e ∉ s.expired := by intro hx; have := h12 e o ho (Or.inl hx); grind
      have hm : o.mem = .alive := by
        cases hm : o.mem with
        | alive => rfl
        | dying => have := h12 e o ho (Or.inr (by simp [hm])); grind
        | freed => have := h12 e o ho (Or.inr (by simp [hm])); grind
      constructor <;> dsimp only [State.put, State.remove] <;> try assumption
      case ndN => exact h5.filter _
      case ndX => exact nodup_snoc h6 hx
      case ok => cases hc : s.cl <;> rw [hc] at h20 <;> simp only [Cleaner.Ok] at h20 ⊢ <;> grind
      all_goals grind
  case finish e =>
    have key : ∀ o, s.env e = some o → o.phase = .removed → Inv (s.put e { o with phase := .ended }) := by
      intro o ho hp
      have hno : o.noThread = false := by
        cases hn : o.noThread with
        | false => rfl
        | true => have := (h.noTh e o ho hn).2.1; grind
      refine inv_put h ho rfl rfl (by simp [hno]) (fun _ => h.told e o ho (by simp [hp])) ?_ ?_ (by simp) (by simp)
      · intro hc'; exact absurd (h.curCl e o ho hc') (by simp [hno])
      · intro hd hm; have := (h.normal e o hm ho).2 hd; grind
    crunch hs
    all_goals first | exact key _ ‹_› ‹_› | exact inv_forget (key _ ‹_› ‹_›) _
  case spurious =>
    crunch hs
    have hok := h.ok
    rename_i hcl
    rw [hcl] at hok
    exact inv_cl h (Or.inl rfl) (Or.inl rfl) (by simp) (by simp) (by simp [hcl]) ⟨h.ndX, fun e he => ⟨he, hok e he⟩, fun e _ he _ hn => absurd he hn⟩
  case joined =>
    obtain ⟨h1, h2, h3, h4, h5, h6, h7, h8, h9, h10, h11, h12, h13, h14, h15, h16, h17, h18, h19, h21, h20⟩ := h
    crunch hs
    constructor <;> dsimp only <;> first | assumption | grind

theorem inv_runs {as : List Act} {s : State} {tr : List Ev} (h : runs step State.init as = some (s, tr)) : Inv s :=
  runs_inv Inv (fun _ _ _ _ h hs => inv_step h hs) as _ _ _ inv_init h

/-! ## What happened so far -/

/-- Events that say nothing about the memory of an env or the manager, other than by a thread that is no scheduling thread. (Concerns co_manager.cpp:87-411.) -/
def Ev.quiet : Ev → Bool
  | .freed _ | .dropped _ | .useEnv (.worker _) _ | .useMan (.worker _) => false
  | _ => true

/-- Facts about a reachable state and how it was reached. (Concerns co_manager.cpp:87-411.) -/
structure Hist (s : State) (tr : List Ev) : Prop where
  none : ∀ e, s.env e = none → tr.count (.freed e) = 0
  freed : ∀ e o, s.env e = some o → tr.count (.freed e) = if o.mem = .freed then 1 else 0
  dropped : ∀ e, Ev.dropped e ∈ tr → s.cleanUp = true ∧ (s.cl.locked = true ∨ s.cl = .ended) ∧ e ∉ s.normal ∧
    (s.cl ≠ .ended → e ∉ s.expired) ∧ (s.env e).isSome
  alive : ∀ e o, Ev.dropped e ∈ tr → s.env e = some o → o.mem = .alive
  worker : ∀ w e, Ev.useEnv (.worker w) e ∉ tr
  place : ∀ e o, s.env e = some o → o.conv = .none →
    e ∈ s.normal ∨ e ∈ s.expired ∨ Ev.dropped e ∈ tr ∨ o.mem = .freed
  rest : ∀ e o, s.cl = .ended → e ∈ s.normal → s.env e = some o → o.conv ≠ .none
  man : ∀ w, Ev.useMan (.worker w) ∈ tr → Ev.dropped w ∈ tr

theorem hist_init : Hist State.init [] := by
  constructor <;> simp [State.init]

theorem count_quiet {es : List Ev} (h : ∀ x ∈ es, x.quiet = true) (e : Nat) : es.count (.freed e) = 0 := by
  rw [List.count_eq_zero]; intro hm; simpa [Ev.quiet] using h _ hm

/-- Quiet events change nothing. -/
theorem hist_ev {s : State} {tr es : List Ev} (h : Hist s tr) (hq : ∀ x ∈ es, x.quiet = true) : Hist s (tr ++ es) := by
  have hc := count_quiet hq
  have hd : ∀ e, Ev.dropped e ∉ es := fun e hm => by simpa [Ev.quiet] using hq _ hm
  have hw : ∀ w e, Ev.useEnv (.worker w) e ∉ es := fun w e hm => by simpa [Ev.quiet] using hq _ hm
  have hm : ∀ w, Ev.useMan (.worker w) ∉ es := fun w hm => by simpa [Ev.quiet] using hq _ hm
  obtain ⟨h1, h2, h3, h4, h5, h6, h7, h8⟩ := h
  constructor <;> (try simp only [List.count_append, List.mem_append]) <;> grind

theorem hist_convert {s : State} {tr : List Ev} (hI : Inv s) (h : Hist s tr) (t : Nat) : Hist (s.convert t) tr := by
  obtain ⟨f1, f2, f3⟩ := next_fresh hI
  obtain ⟨h1, h2, h3, h4, h5, h6, h7, h8⟩ := h
  constructor <;> (try dsimp only [State.convert, State.put]) <;> grind

theorem guard_quiet (s : State) (t : Nat) : ∀ x ∈ (s.guard t).2, x.quiet = true := by
  unfold State.guard
  split
  · simp [Ev.quiet]
  · split
    · split <;> simp [Ev.quiet]
    · simp

theorem hist_guard {s : State} {tr : List Ev} (hI : Inv s) (h : Hist s tr) (t : Nat) :
    Hist (s.guard t).1 (tr ++ (s.guard t).2) := by
  refine hist_ev ?_ (guard_quiet s t)
  unfold State.guard
  split
  · exact hist_convert hI h t
  · split <;> exact h

theorem hist_cleaned {s : State} {tr : List Ev} (hI : Inv s) (h : Hist s tr) (hr : s.mp = .running) :
    Hist s.cleaned (tr ++ s.cleanedEv) := by
  refine hist_ev ?_ ?_
  · have hE : ∀ (e : Nat) (o : Env), s.cleaned.env e = some o →
        ∃ o', s.env e = some o' ∧ o.conv = o'.conv ∧ o.mem = o'.mem := by
      intro e o ho
      cases hh : s.env e with
      | none => simp [State.cleaned, hh] at ho
      | some o' =>
        simp only [State.cleaned, hh] at ho
        split at ho <;> (cases ho; exact ⟨_, rfl, rfl, rfl⟩)
    have hN : ∀ e, s.cleaned.env e = none → s.env e = none := by
      intro e he; simp only [State.cleaned] at he; split at he <;> simpa using he
    have hcu : s.cleanUp = false := by
      cases hc : s.cleanUp with
      | false => rfl
      | true => exact absurd hr (hI.mp.mp hc)
    have hd : ∀ e, Ev.dropped e ∉ tr := fun e hm => by have := (h.dropped e hm).1; simp [hcu] at this
    have hne : s.cl ≠ .ended := fun hc => by have := hI.ended hc; simp [hcu] at this
    obtain ⟨h1, h2, h3, h4, h5, h6, h7, h8⟩ := h
    constructor
    · intro e he; exact h1 e (hN e he)
    · intro e o ho; obtain ⟨o', k1, k2, k3⟩ := hE e o ho; rw [k3]; exact h2 e o' k1
    · intro e he; exact absurd he (hd e)
    · intro e _ he; exact absurd he (hd e)
    · exact h5
    · intro e o ho hc; obtain ⟨o', k1, k2, k3⟩ := hE e o ho
      have := h6 e o' k1 (k2 ▸ hc)
      simp only [State.cleaned, List.mem_filter, List.mem_append]
      rw [k3]
      cases hn : s.noTh e <;> grind
    · intro e o hc; exact absurd hc hne
    · exact h8
  · intro x hx
    simp only [State.cleanedEv, List.mem_append, List.mem_map] at hx
    rcases hx with ⟨_, -, rfl⟩ | ⟨_, -, rfl⟩ <;> rfl

theorem hist_put {s : State} {tr : List Ev} (h : Hist s tr) {e : Nat} {o o' : Env} (ho : s.env e = some o)
    (hc : o'.conv = o.conv) (hm : o'.mem = .freed ↔ o.mem = .freed) (hd : Ev.dropped e ∈ tr → o.mem = .alive → o'.mem = .alive) :
    Hist (s.put e o') tr := by
  obtain ⟨h1, h2, h3, h4, h5, h6, h7, h8⟩ := h
  constructor <;> (try dsimp only [State.put]) <;> grind

theorem hist_remove {s : State} {tr : List Ev} (h : Hist s tr) {e : Nat} (hl : Ev.dropped e ∈ tr → s.cl = .ended) :
    Hist (s.remove e) tr := by
  obtain ⟨h1, h2, h3, h4, h5, h6, h7, h8⟩ := h
  constructor <;> (try dsimp only [State.remove]) <;> grind

theorem hist_free {s : State} {tr : List Ev} (h : Hist s tr) {e : Nat} {o : Env} {c : Cleaner} (ho : s.env e = some o)
    (hm : o.mem ≠ .freed) (hx : e ∈ s.expired) (hl : s.cl.locked = true) (hc : c.locked = true) :
    Hist { s.put e { o with mem := .freed } with cl := c } (tr ++ [.freed e]) := by
  have hne : s.cl ≠ .ended := by intro hh; simp [hh, Cleaner.locked] at hl
  have hnc : c ≠ .ended := by intro hh; simp [hh, Cleaner.locked] at hc
  have hd : Ev.dropped e ∉ tr := fun hd => (h.dropped e hd).2.2.2.1 hne hx
  obtain ⟨h1, h2, h3, h4, h5, h6, h7, h8⟩ := h
  constructor <;> (try dsimp only [State.put])
  · intro x hx'
    rw [List.count_append, h1 x (by grind)]
    have : x ≠ e := by rintro rfl; simp [upd_same] at hx'
    simp [Ne.symm this]
  · intro x o' hx'
    rw [upd_apply] at hx'
    split at hx'
    · rename_i he; subst he; cases hx'; rw [List.count_append, h2 _ _ ho]; simp [hm]
    · rename_i he; rw [List.count_append, h2 _ _ hx']
      simp [Ne.symm he]
  all_goals grind

/-- The cleaner goes on and keeps the lock, or ends. -/
theorem hist_cl {s : State} {tr : List Ev} (h : Hist s tr) {c : Cleaner} {sg : Bool}
    (hc : c.locked = true ∨ (c = .ended ∧ s.normal = []) ∨ s.cleanUp = false) (hl : s.cl ≠ .ended) (hw : c = .ended → s.normal = []) :
    Hist { s with cl := c, signal := sg } tr := by
  obtain ⟨h1, h2, h3, h4, h5, h6, h7, h8⟩ := h
  constructor <;> (try dsimp only) <;> grind

theorem hist_clean {s s' : State} {tr es : List Ev} (hI : Inv s) (h : Hist s tr) (hs : cleanStep s = some (s', es)) :
    Hist s' (tr ++ es) := by
  have hok := hI.ok
  cases hcl : s.cl with
  | start =>
    simp only [cleanStep, hcl, Option.some.injEq, Prod.mk.injEq] at hs
    obtain ⟨rfl, rfl⟩ := hs
    rw [List.append_nil]
    exact hist_cl h (Or.inl rfl) (by simp [hcl]) (by simp)
  | ended => simp [cleanStep, hcl] at hs
  | waiting =>
    simp only [cleanStep, hcl] at hs
    split at hs
    · simp only [Option.some.injEq, Prod.mk.injEq] at hs
      obtain ⟨rfl, rfl⟩ := hs
      rw [List.append_nil]
      exact hist_cl h (Or.inl rfl) (by simp [hcl]) (by simp)
    · simp at hs
  | top =>
    simp only [cleanStep, hcl] at hs
    split at hs
    · split at hs
      · rename_i hn
        simp only [Option.some.injEq, Prod.mk.injEq] at hs
        obtain ⟨rfl, rfl⟩ := hs
        rw [List.append_nil]
        exact hist_cl h (Or.inr (Or.inl ⟨rfl, hn⟩)) (by simp [hcl]) (fun _ => hn)
      · simp only [Option.some.injEq, Prod.mk.injEq] at hs
        obtain ⟨rfl, rfl⟩ := hs
        rw [List.append_nil]
        exact hist_cl h (Or.inl rfl) (by simp [hcl]) (by simp)
    · rename_i hc
      simp only [Option.some.injEq, Prod.mk.injEq] at hs
      obtain ⟨rfl, rfl⟩ := hs
      rw [List.append_nil]
      exact hist_cl h (Or.inr (Or.inr (by simpa using hc))) (by simp [hcl]) (by simp)
  | stopping todo =>
    rw [hcl] at hok
    obtain ⟨k1, k2, k3, k4⟩ := hok
    cases todo with
    | nil =>
      simp only [cleanStep, hcl, Option.some.injEq, Prod.mk.injEq] at hs
      obtain ⟨rfl, rfl⟩ := hs
      have hcn : ∀ e, (s.normal.map Ev.dropped).count (.freed e) = 0 := by
        intro e; rw [List.count_eq_zero]; simp
      have hmd : ∀ e, Ev.dropped e ∈ s.normal.map Ev.dropped ↔ e ∈ s.normal := by intro e; simp
      have hmw : ∀ w e, Ev.useEnv (.worker w) e ∉ s.normal.map Ev.dropped := by intro w e; simp
      have hmm : ∀ w, Ev.useMan w ∉ s.normal.map Ev.dropped := by intro w; simp
      generalize s.normal.map Ev.dropped = es at *
      have g1 := hI.disj
      have g2 := hI.normal
      have g3 := hI.normalS
      obtain ⟨h1, h2, h3, h4, h5, h6, h7, h8⟩ := h
      constructor <;> (try simp only [List.count_append, List.mem_append]) <;> grind
    | cons e es =>
      simp only [cleanStep, hcl] at hs
      split at hs
      · rename_i o ho
        have hen := k2 e (by simp)
        split at hs
        · rename_i hn
          simp only [Option.some.injEq, Prod.mk.injEq] at hs
          obtain ⟨rfl, rfl⟩ := hs
          have h' : Hist { s with cl := .stopping es } tr := hist_cl h (Or.inl rfl) (by simp [hcl]) (by simp)
          exact hist_ev (hist_remove h' (fun hd => absurd hen (h.dropped e hd).2.2.1)) (by simp [Ev.quiet])
        · rename_i hn
          simp only [Option.some.injEq, Prod.mk.injEq] at hs
          obtain ⟨rfl, rfl⟩ := hs
          have h1 : Inv (s.put e { o with told := true }) := by
            refine inv_put hI ho rfl rfl (by simp [hn]) (by simp) ?_ (fun hd he => (hI.normal e o he ho).2 hd) ?_ (hI.own e o ho)
            · intro hc; exact absurd (hI.curCl e o ho hc) hn
            · rintro (hx | hx)
              · exact absurd hx (hI.disj e hen)
              · exact absurd (hI.normal e o hen ho).1 hx
          have g1 := hist_ev (hist_put h (o' := { o with told := true }) ho rfl Iff.rfl (fun _ => id))
            (es := [Ev.told e]) (by simp [Ev.quiet])
          have g2 := hist_guard h1 g1 cleaner
          rw [List.append_assoc, List.singleton_append] at g2
          exact hist_cl g2 (Or.inl rfl) (by rw [guard_cl]; simp [State.put, hcl]) (by simp)
      · simp at hs
  | deleting todo =>
    rw [hcl] at hok
    obtain ⟨k1, k2, k2'⟩ := hok
    cases todo with
    | nil =>
      simp only [cleanStep, hcl, Option.some.injEq, Prod.mk.injEq] at hs
      obtain ⟨rfl, rfl⟩ := hs
      rw [List.append_nil]
      obtain ⟨h1, h2, h3, h4, h5, h6, h7, h8⟩ := h
      constructor <;> (try dsimp only) <;> grind
    | cons e es =>
      have hx := (k2 e (by simp)).1
      simp only [cleanStep, hcl] at hs
      repeat' split at hs
      all_goals simp only [Option.some.injEq, Prod.mk.injEq, reduceCtorEq] at hs
      all_goals obtain ⟨rfl, rfl⟩ := hs
      · rename_i o ho _ _
        rw [List.append_nil]
        have hm := (k2 e (by simp)).2 o ho
        have hd : Ev.dropped e ∉ tr := fun hd => (h.dropped e hd).2.2.2.1 (by simp [hcl]) hx
        exact hist_cl (hist_put h (o' := { o with mem := .dying }) ho rfl (by simp [hm]) (fun h => absurd h hd))
          (Or.inl rfl) (by simp [State.put, hcl]) (by simp)
      · rename_i o ho _ _ _
        exact hist_free h ho (by simp [(k2 e (by simp)).2 o ho]) hx (by simp [hcl, Cleaner.locked]) rfl
  | joining e es =>
    rw [hcl] at hok
    obtain ⟨k1, k2, k3, k4, k5⟩ := hok
    simp only [cleanStep, hcl] at hs
    repeat' split at hs
    all_goals simp only [Option.some.injEq, Prod.mk.injEq, reduceCtorEq] at hs
    all_goals obtain ⟨rfl, rfl⟩ := hs
    rename_i o ho _
    exact hist_free h ho (by simp [(k3 o ho).1]) k2 (by simp [hcl, Cleaner.locked]) rfl
  | idle e es =>
    simp only [cleanStep, hcl, Option.some.injEq, Prod.mk.injEq] at hs
    obtain ⟨rfl, rfl⟩ := hs
    exact hist_cl (hist_guard hI h cleaner) (Or.inl rfl) (by rw [guard_cl]; simp [hcl]) (by simp)

theorem hist_step {s s' : State} {a : Act} {tr es : List Ev} (hI : Inv s) (h : Hist s tr) (hs : step s a = some (s', es)) :
    Hist s' (tr ++ es) := by
  cases a
  case use t =>
    simp only [step] at hs
    repeat' split at hs
    all_goals simp only [Option.some.injEq, reduceCtorEq] at hs
    · cases hs; exact hist_ev h (by simp [Ev.quiet])
    · have := hist_guard hI h t; rw [hs] at this; exact this
    · have := hist_guard hI h t; rw [hs] at this; exact this
  case destroy =>
    have key : s.mp = .running → s.cl.locked = false → s.setCleanUp = (s', es) → Hist s' (tr ++ es) := by
      intro hr hl hs
      have g := hist_cleaned hI h hr
      unfold State.setCleanUp at hs
      split at hs
      · cases hs; exact g
      · cases hs
        rw [← List.append_assoc]
        exact hist_guard (inv_clean1 hI hr hl) g main
    simp only [step] at hs
    repeat' split at hs
    all_goals simp only [Option.some.injEq, reduceCtorEq] at hs
    · rename_i hc; exact key hc.1 hc.2.1 hs
    · rename_i hc; exact key hc.1 hc.2 hs
  case clean => exact hist_clean hI h hs
  case create =>
    obtain ⟨f1, f2, f3⟩ := next_fresh hI
    crunch hs
    refine hist_ev ?_ (by simp [Ev.quiet])
    have g := hI.ended
    obtain ⟨h1, h2, h3, h4, h5, h6, h7, h8⟩ := h
    constructor <;> (try dsimp only [State.put]) <;> grind
  case threadEnd t =>
    crunch hs
    rw [List.append_nil]
    obtain ⟨h1, h2, h3, h4, h5, h6, h7, h8⟩ := h
    constructor <;> (try dsimp only) <;> assumption
  case startHere t =>
    crunch hs
    · exact hist_ev h (by simp [Ev.quiet])
    · rename_i o ho _ _
      rw [List.append_nil]; exact hist_put h (o := o) ho rfl Iff.rfl (fun _ => id)
  case stop e =>
    crunch hs
    rename_i o ho _
    exact hist_ev (hist_put h (o := o) ho rfl Iff.rfl (fun _ => id)) (by simp [Ev.quiet])
  case leave e =>
    crunch hs
    · rename_i o ho _ _
      rw [List.append_nil]; exact hist_put h (o := o) ho rfl Iff.rfl (fun _ => id)
    · rename_i o ho hc hm
      have := hI.exp e o ho (Or.inr hm); grind
  case expire e =>
    crunch hs
    · rename_i o ho hc hd
      have hp := hist_put h (o' := { o with phase := .removed }) ho rfl Iff.rfl (fun _ => id)
      obtain ⟨t, hv⟩ | hv : (∃ t, o.conv = some t) ∨ o.conv = none := by cases o.conv <;> simp
      · exact hist_ev hp (by simp [Env.runner, hv, Ev.quiet])
      · have hdr : Ev.dropped e ∈ tr := by
          have e1 := hI.done hd
          have e2 := h.place e o ho hv
          have e3 := h.rest e o e1
          have e4 := hI.exp e o ho
          have e5 := hI.own e o ho hv
          grind
        have hR : o.runner e = .worker e := by simp [Env.runner, hv]
        rw [hR]
        have hsub : ∀ x ∈ tr, x ∈ tr ++ [Ev.useMan (.worker e)] := fun x hx => List.mem_append_left _ hx
        obtain ⟨h1, h2, h3, h4, h5, h6, h7, h8⟩ := hp
        constructor <;> (try simp only [List.count_append, List.mem_append, List.mem_singleton]) <;> grind
    · rename_i o ho hc hd
      refine hist_ev (hist_remove (hist_put h (o := o) (o' := { o with phase := .removed }) ho rfl Iff.rfl (fun _ => id)) ?_)
        (by simp [Ev.quiet])
      intro hdr; have := (h.dropped e hdr).2.1; simp only [State.put]; grind
  case finish e =>
    have key : ∀ o, s.env e = some o → o.phase = .removed → Hist (s.put e { o with phase := .ended }) tr :=
      fun o ho _ => hist_put h ho rfl Iff.rfl (fun _ => id)
    have forget : ∀ (s : State) t, Hist s tr → Hist { s with cur := upd s.cur t none } tr := by
      intro s t h
      obtain ⟨h1, h2, h3, h4, h5, h6, h7, h8⟩ := h
      constructor <;> (try dsimp only) <;> assumption
    crunch hs
    · rename_i o ho hp _ t hv hm
      exact hist_ev (forget _ _ (key _ ho hp)) (by simp [Env.runner, hv, Ev.quiet])
    · rw [List.append_nil]; exact forget _ _ (key _ ‹_› ‹_›)
    · rename_i o ho hp _ hv hm
      have := hI.own e o ho hv hm; grind
    · rw [List.append_nil]; exact key _ ‹_› ‹_›
  case spurious =>
    crunch hs
    rename_i hcl
    rw [List.append_nil]
    exact hist_cl h (Or.inl rfl) (by simp [hcl]) (by simp)
  case joined =>
    crunch hs
    refine hist_ev ?_ (by simp [Ev.quiet])
    obtain ⟨h1, h2, h3, h4, h5, h6, h7, h8⟩ := h
    constructor <;> (try dsimp only) <;> assumption

theorem hist_runs {as : List Act} {s : State} {tr : List Ev} (h : runs step State.init as = some (s, tr)) :
    Inv s ∧ Hist s tr := by
  have := runs_hist (fun s tr => Inv s ∧ Hist s tr)
    (fun _ _ _ _ _ h hs => ⟨inv_step h.1 hs, hist_step h.1 h.2 hs⟩) as _ _ _ [] ⟨inv_init, hist_init⟩ h
  simpa using this

/-! ## C91: envs are destroyed once, and not while in use -/

/-- **C91, once.** No env is freed twice. -/
theorem C91_freed_once {as : List Act} {s : State} {tr : List Ev} (h : runs step State.init as = some (s, tr)) (e : Nat) :
    tr.count (.freed e) ≤ 1 := by
  have hh := (hist_runs h).2
  cases he : s.env e with
  | none => rw [hh.none e he]; omega
  | some o => rw [hh.freed e o he]; split <;> omega

/-- **C91, scheduling threads.** An env with a thread of its own is freed only when that thread has ended, and no such thread ever
touches a freed env. -/
theorem C91_worker_joined {as : List Act} {s : State} {tr : List Ev} (h : runs step State.init as = some (s, tr)) :
    (∀ e o, s.env e = some o → o.conv = none → Ev.freed e ∈ tr → o.phase = .ended) ∧
    ∀ w e, Ev.useEnv (.worker w) e ∉ tr := by
  obtain ⟨hI, hh⟩ := hist_runs h
  refine ⟨fun e o ho hc hf => hI.own e o ho hc ?_, hh.worker⟩
  have h1 := hh.freed e o ho
  have h2 : 0 < tr.count (.freed e) := List.count_pos_iff.mpr hf
  split at h1
  · assumption
  · omega

/-- Without `schedule_in_this_thread` and before the destructor, converted envs are members of the set. (Concerns co_manager.cpp:87-411.) -/
structure Early (s : State) (tr : List Ev) : Prop where
  noTh : ∀ e o t, s.env e = some o → o.conv = some t → o.noThread = true
  normal : ∀ e o t, s.cleanUp = false → s.env e = some o → o.conv = some t → e ∈ s.normal
  quiet : s.cleanUp = false → ∀ w e, Ev.useEnv w e ∉ tr

theorem early_guard {s : State} {tr : List Ev} (hI : Inv s) (h : Early s tr) (t : Nat) :
    Early (s.guard t).1 (tr ++ (s.guard t).2) := by
  obtain ⟨f1, f2, f3⟩ := next_fresh hI
  unfold State.guard
  split
  · obtain ⟨h1, h2, h3⟩ := h
    constructor <;> dsimp only [State.convert, State.put]
    · grind
    · grind
    · intro hc w e; simpa using h3 hc w e
  · rename_i e hcur
    split
    · rename_i o ho
      obtain ⟨h1, h2, h3⟩ := h
      refine ⟨h1, h2, fun hc w e' => ?_⟩
      have := (hI.normal e o (h2 e o t hc ho (hI.cur t e o hcur ho)) ho).1
      simpa [this] using h3 hc w e'
    · simpa using h

theorem early_step {s s' : State} {a : Act} {tr es : List Ev} (hI : Inv s) (h : Early s tr) (ha : ∀ t, a ≠ .startHere t)
    (hs : step s a = some (s', es)) : Early s' (tr ++ es) := by
  have hput : ∀ e o o', s.env e = some o → o'.conv = o.conv → (o.conv ≠ none → o'.noThread = o.noThread) →
      Early (s.put e o') tr := by
    intro e o o' ho hc hn
    obtain ⟨h1, h2, h3⟩ := h
    constructor <;> dsimp only [State.put] <;> grind
  have hev : ∀ {s : State} {es : List Ev}, Early s tr → (∀ w e, Ev.useEnv w e ∉ es) → Early s (tr ++ es) := by
    intro s es h he
    obtain ⟨h1, h2, h3⟩ := h
    exact ⟨h1, h2, fun hc w e hm => (List.mem_append.mp hm).elim (h3 hc w e) (he w e)⟩
  cases a
  case startHere t => exact absurd rfl (ha t)
  case use t =>
    simp only [step] at hs
    repeat' split at hs
    all_goals simp only [Option.some.injEq, reduceCtorEq] at hs
    · cases hs; exact hev h (by simp)
    · have := early_guard hI h t; rw [hs] at this; exact this
    · have := early_guard hI h t; rw [hs] at this; exact this
  case destroy =>
    have key : s.mp = .running → s.cl.locked = false → s.setCleanUp = (s', es) → Early s' (tr ++ es) := by
      intro hr hl hs
      have g : Early s.cleaned (tr ++ s.cleanedEv) := by
        refine hev ⟨?_, by simp [State.cleaned], by simp [State.cleaned]⟩ (by simp [State.cleanedEv])
        intro e o t ho hv
        simp only [State.cleaned] at ho
        have := h.noTh e
        split at ho <;> grind
      unfold State.setCleanUp at hs
      split at hs
      · cases hs; exact g
      · cases hs
        rw [← List.append_assoc]
        exact early_guard (inv_clean1 hI hr hl) g main
    simp only [step] at hs
    repeat' split at hs
    all_goals simp only [Option.some.injEq, reduceCtorEq] at hs
    · rename_i hc; exact key hc.1 hc.2.1 hs
    · rename_i hc; exact key hc.1 hc.2 hs
  case clean =>
    have hok := hI.ok
    have hcl : ∀ {s1 : State} {tr1 : List Ev} (c : Cleaner) (sg : Bool) (x : List Nat), Early s1 tr1 →
        Early { s1 with cl := c, signal := sg, expired := x } tr1 := by
      intro s1 tr1 c sg x h; exact ⟨h.noTh, h.normal, h.quiet⟩
    have hcu : ∀ todo, s.cl = .stopping todo → s.cleanUp = true := by
      intro todo hc; rw [hc] at hok; exact hok.2.2.1
    simp only [step, cleanStep] at hs
    repeat' split at hs
    all_goals simp only [Option.some.injEq, Prod.mk.injEq, reduceCtorEq] at hs
    all_goals obtain ⟨rfl, rfl⟩ := hs
    · rw [List.append_nil]; exact hcl _ _ _ h
    · rw [List.append_nil]; exact hcl _ _ _ h
    · rw [List.append_nil]; exact hcl _ _ _ h
    · rw [List.append_nil]; exact hcl _ _ _ h
    · rw [List.append_nil]; exact hcl _ _ _ h
    · rename_i hc
      have := hcu _ hc
      exact ⟨h.noTh, by simp [this], by simp [this]⟩
    · rename_i hc _ _ _ _
      have := hcu _ hc
      exact ⟨h.noTh, by simp [this, State.remove], by simp [this, State.remove]⟩
    · rename_i e es hc _ o ho hn
      have hc' := hcu _ hc
      rw [hc] at hok
      have hen := hok.2.1 e (by simp)
      have h1 : Inv (s.put e { o with told := true }) := by
        refine inv_put hI ho rfl rfl (by simp [hn]) (by simp) ?_ (fun hd he => (hI.normal e o he ho).2 hd) ?_ (hI.own e o ho)
        · intro hc; exact absurd (hI.curCl e o ho hc) hn
        · rintro (hx | hx)
          · exact absurd hx (hI.disj e hen)
          · exact absurd (hI.normal e o hen ho).1 hx
      have g := early_guard h1 (hput e o { o with told := true } ho rfl (fun _ => rfl)) cleaner
      exact ⟨g.noTh, fun e o t hf => absurd hf (by simp [guard_cleanUp, State.put, hc']),
        fun hf => absurd hf (by simp [guard_cleanUp, State.put, hc'])⟩
    · rw [List.append_nil]; exact hcl _ _ _ h
    · rename_i o ho _ _
      rw [List.append_nil]; exact hcl _ _ _ (hput _ o _ ho rfl (fun _ => rfl))
    · rename_i o ho _ _ _
      exact hev (hcl _ _ _ (hput _ o _ ho rfl (fun _ => rfl))) (by simp)
    · rename_i o ho _
      exact hev (hcl _ _ _ (hput _ o _ ho rfl (fun _ => rfl))) (by simp)
    · exact hcl _ _ _ (early_guard hI h cleaner)
  case create =>
    crunch hs
    refine hev ?_ (by simp)
    obtain ⟨h1, h2, h3⟩ := h
    constructor <;> dsimp only [State.put] <;> grind
  case threadEnd t => crunch hs; rw [List.append_nil]; exact ⟨h.noTh, h.normal, h.quiet⟩
  case stop e =>
    crunch hs
    rename_i o ho _
    exact hev (hput _ o _ ho rfl (fun _ => rfl)) (by simp)
  case leave e =>
    crunch hs
    · rename_i o ho _ _
      rw [List.append_nil]; exact hput _ o _ ho rfl (fun _ => rfl)
    · rename_i o ho hc hm
      have := hI.exp e o ho (Or.inr hm); grind
  case expire e =>
    crunch hs
    · rename_i o ho hc hd
      exact hev (hput _ o _ ho rfl (fun _ => rfl)) (by simp)
    · rename_i o ho hc hd
      have hv : o.conv = none := by
        have e1 := h.noTh e o
        have e2 := hI.noTh e o ho
        cases hv : o.conv with
        | none => rfl
        | some t => have := e2 (e1 t ho hv); grind
      refine hev ?_ (by simp)
      obtain ⟨h1, h2, h3⟩ := h
      constructor <;> dsimp only [State.put, State.remove] <;> grind
  case finish e =>
    have key : ∀ o, s.env e = some o → o.phase = .removed → o.conv = none := by
      intro o ho hp
      have e1 := h.noTh e o
      have e2 := hI.noTh e o ho
      cases hv : o.conv with
      | none => rfl
      | some t => have := e2 (e1 t ho hv); grind
    crunch hs
    · rename_i o ho hp _ t hv hm
      have := key o ho hp; grind
    · rename_i o ho hp _ t hv hm
      have := key o ho hp; grind
    · rename_i o ho hp _ hv hm
      have := hI.own e o ho hv hm; grind
    · rename_i o ho hp _ hv hm
      rw [List.append_nil]; exact hput _ o _ ho rfl (fun _ => rfl)
  case spurious => crunch hs; rw [List.append_nil]; exact ⟨h.noTh, h.normal, h.quiet⟩
  case joined => crunch hs; exact hev ⟨h.noTh, h.normal, h.quiet⟩ (by simp)

/-- **C91, before the destructor (partial).** As long as the manager is not being destroyed and no thread has called
`schedule_in_this_thread`, nobody touches a freed env. -/
theorem C91_before_partial {as : List Act} {s : State} {tr : List Ev} (h : runs step State.init as = some (s, tr))
    (hc : s.cleanUp = false) (ha : ∀ t, Act.startHere t ∉ as) (w : Who) (e : Nat) : Ev.useEnv w e ∉ tr := by
  have key : ∀ (as : List Act) (s0 s : State) (tr0 tr : List Ev), (∀ t, Act.startHere t ∉ as) → Inv s0 → Early s0 tr0 →
      runs step s0 as = some (s, tr) → Early s (tr0 ++ tr) := by
    intro as
    induction as with
    | nil =>
      intro s0 s tr0 tr _ _ h0 h
      simp only [runs, Option.some.injEq, Prod.mk.injEq] at h
      obtain ⟨rfl, rfl⟩ := h
      simpa using h0
    | cons a as ih =>
      intro s0 s tr0 tr ha hI h0 h
      obtain ⟨s1, e1, e2, h1, h2, rfl⟩ := runs_cons h
      rw [← List.append_assoc]
      refine ih s1 s _ _ (fun t hm => ha t (by simp [hm])) (inv_step hI h1) ?_ h2
      exact early_step hI h0 (fun t hh => ha t (by simp [hh])) h1
  have := key as _ s [] tr ha inv_init ⟨by simp [State.init], by simp [State.init], by simp⟩ h
  rw [List.nil_append] at this
  exact this.quiet hc w e

/-- The cleaner is on its way to freeing its own current env, or will have one and then free it. (Concerns co_manager.cpp:87-411.) -/
def Doomed (s : State) : Prop := s.cleanUp = true ∧ match s.cl with
  | .waiting => (s.cur cleaner = none ∧ s.expired ≠ []) ∨ ∃ z, s.cur cleaner = some z ∧ (z ∈ s.normal ∨ z ∈ s.expired)
  | .top => ∃ z, s.cur cleaner = some z ∧ z ∈ s.normal
  | .stopping todo => ∃ z, s.cur cleaner = some z ∧ (z ∈ todo ∨ z ∈ s.expired)
  | .deleting todo => (s.cur cleaner = none ∧ todo ≠ []) ∨ ∃ z, s.cur cleaner = some z ∧ (z ∈ s.normal ∨ z ∈ todo)
  | .joining _ todo => s.cur cleaner = none ∨ ∃ z, s.cur cleaner = some z ∧ (z ∈ s.normal ∨ z ∈ todo)
  | .idle e todo => s.cur cleaner = none ∨ ∃ z, s.cur cleaner = some z ∧ (z ∈ s.normal ∨ z ∈ todo ∨ z = e)
  | _ => False

/-- What another thread does while the cleaner waits or works does not save it. -/
theorem doomed_frame {s s' : State} (h : Doomed s) (hl : s'.cl = s.cl) (hc : s'.cleanUp = s.cleanUp)
    (hcur : s'.cur cleaner = s.cur cleaner)
    (hn : ∀ z, s.cur cleaner = some z → z ∈ s.normal → z ∈ s'.normal)
    (hx : ∀ z ∈ s.expired, z ∈ s'.expired) : Doomed s' := by
  obtain ⟨h1, h2⟩ := h
  refine ⟨hc ▸ h1, ?_⟩
  rw [hl]
  have hne : s.expired ≠ [] → s'.expired ≠ [] := by
    intro hh hh'
    obtain ⟨x, hm⟩ := List.exists_mem_of_ne_nil _ hh
    have := hx x hm; simp [hh'] at this
  split at h2 <;> rename_i hq <;> (try simp only [hcur]) <;> grind

theorem doomed_step {s s' : State} {a : Act} {es : List Ev} (hI : Inv s) (h : Doomed s) (hs : step s a = some (s', es)) :
    Doomed s' ∨ ∃ e, Ev.useEnv (.thread cleaner) e ∈ es := by
  have hguard : ∀ t, t ≠ cleaner → Doomed (s.guard t).1 := by
    intro t ht
    unfold State.guard
    split
    · refine doomed_frame h rfl rfl ?_ ?_ (fun _ hz => hz)
      · simp [State.convert, upd_other, Ne.symm ht]
      · intro z _ hz; simp [State.convert, hz]
    · split <;> exact h
  have hput : ∀ e o, Doomed (s.put e o) := fun e o => doomed_frame h rfl rfl rfl (fun _ _ hz => hz) (fun _ hz => hz)
  cases a
  case use t =>
    simp only [step] at hs
    repeat' split at hs
    all_goals simp only [Option.some.injEq, reduceCtorEq] at hs
    · cases hs; exact Or.inl h
    · have := hguard t (by grind); rw [hs] at this; exact Or.inl this
    · have := hguard t (by grind); rw [hs] at this; exact Or.inl this
  case destroy =>
    have hr := hI.mp.mp h.1
    simp only [step] at hs
    repeat' split at hs
    all_goals simp only [Option.some.injEq, reduceCtorEq] at hs
    all_goals rename_i hc; exact absurd hc.1 hr
  case create => crunch hs; have := h.1; grind
  case threadEnd t =>
    crunch hs
    refine Or.inl (doomed_frame h rfl rfl ?_ (fun _ _ hz => hz) (fun _ hz => hz))
    rename_i hc _ _ _ _
    dsimp only
    rw [upd_other]; grind
  case startHere t =>
    crunch hs
    · exact Or.inl h
    · exact Or.inl (hput _ _)
  case stop e => crunch hs; exact Or.inl (hput _ _)
  case leave e => crunch hs <;> exact Or.inl (hput _ _)
  case expire e =>
    crunch hs
    · exact Or.inl (hput _ _)
    · rename_i o ho hc hd
      refine Or.inl (doomed_frame h rfl rfl rfl ?_ ?_)
      · intro z hz hm
        have hze : z ≠ e := by
          rintro rfl
          have := hI.noTh z o ho (hI.curCl z o ho (hI.cur _ _ _ hz ho)); grind
        simp [State.put, State.remove, hm, hze]
      · intro z hz; simp [State.put, State.remove, hz]
  case finish e =>
    have key : ∀ o t, s.env e = some o → o.phase = .removed → o.conv = some t → t ≠ cleaner := by
      intro o t ho hp hv ht
      have := hI.noTh e o ho (hI.curCl e o ho (ht ▸ hv)); grind
    crunch hs
    · refine Or.inl (doomed_frame h rfl rfl ?_ (fun _ _ hz => hz) (fun _ hz => hz))
      rename_i o ho hp _ t hv _
      dsimp only [State.put]; rw [upd_other]; exact (key o t ho hp hv).symm
    · refine Or.inl (doomed_frame h rfl rfl ?_ (fun _ _ hz => hz) (fun _ hz => hz))
      rename_i o ho hp _ t hv _
      dsimp only [State.put]; rw [upd_other]; exact (key o t ho hp hv).symm
    · exact Or.inl (hput _ _)
    · exact Or.inl (hput _ _)
  case spurious =>
    crunch hs
    rename_i hcl
    obtain ⟨h1, h2⟩ := h
    rw [hcl] at h2
    exact Or.inl ⟨h1, h2⟩
  case joined => crunch hs; obtain ⟨-, h2⟩ := h; rename_i hc; simp [hc.2] at h2
  case clean =>
    have hok := hI.ok
    obtain ⟨h1, h2⟩ := h
    simp only [step] at hs
    cases hcl : s.cl with
    | start => simp [hcl] at h2
    | ended => simp [hcl] at h2
    | waiting =>
      rw [hcl] at h2
      simp only [cleanStep, hcl] at hs
      split at hs
      · cases hs; exact Or.inl ⟨h1, h2⟩
      · simp at hs
    | top =>
      rw [hcl] at h2
      obtain ⟨z, hz, hm⟩ := h2
      have hn : s.normal ≠ [] := List.ne_nil_of_mem hm
      simp only [cleanStep, hcl, h1, hn, if_true, if_false] at hs
      cases hs
      exact Or.inl ⟨rfl, z, hz, Or.inl hm⟩
    | stopping todo =>
      rw [hcl] at h2 hok
      obtain ⟨k1, k2, k3, k4⟩ := hok
      obtain ⟨z, hz, hm⟩ := h2
      cases todo with
      | nil =>
        simp only [cleanStep, hcl] at hs
        cases hs
        exact Or.inl ⟨h1, Or.inr ⟨z, hz, Or.inr (by simpa using hm)⟩⟩
      | cons e todo =>
        simp only [cleanStep, hcl] at hs
        repeat' split at hs
        all_goals simp only [Option.some.injEq, Prod.mk.injEq, reduceCtorEq] at hs
        · rename_i o ho hn
          obtain ⟨rfl, rfl⟩ := hs
          refine Or.inl ⟨h1, z, hz, ?_⟩
          simp only [State.remove, List.mem_append, List.mem_singleton]
          simp only [List.mem_cons] at hm
          grind
        · rename_i o ho hn
          obtain ⟨rfl, rfl⟩ := hs
          have hze : z ≠ e := by
            rintro rfl
            exact hn (hI.curCl z o ho (hI.cur _ _ _ hz ho))
          have hg : ((s.put e { o with told := true }).guard cleaner).1 = s.put e { o with told := true } := by
            have : (s.put e { o with told := true }).cur cleaner = some z := hz
            unfold State.guard
            rw [this]
            dsimp only
            split <;> rfl
          rw [hg]
          refine Or.inl ⟨h1, z, hz, ?_⟩
          simp only [List.mem_cons] at hm
          simp only [State.put]
          grind
    | deleting todo =>
      rw [hcl] at h2 hok
      cases todo with
      | nil =>
        simp only [cleanStep, hcl] at hs
        cases hs
        obtain ⟨-, hb⟩ | ⟨z, hz, hm⟩ := h2
        · exact absurd rfl hb
        · exact Or.inl ⟨h1, z, hz, by simpa using hm⟩
      | cons e todo =>
        simp only [cleanStep, hcl] at hs
        repeat' split at hs
        all_goals simp only [Option.some.injEq, Prod.mk.injEq, reduceCtorEq] at hs
        · rename_i o ho _ hv
          obtain ⟨rfl, rfl⟩ := hs
          refine Or.inl ⟨h1, ?_⟩
          obtain ⟨hz, -⟩ | ⟨z, hz, hm⟩ := h2
          · exact Or.inl hz
          · refine Or.inr ⟨z, hz, ?_⟩
            have hze : z ≠ e := by
              rintro rfl
              have := hI.cur _ _ _ hz ho; rw [hv] at this; simp at this
            simpa [hze, State.put] using hm
        · obtain ⟨rfl, rfl⟩ := hs
          refine Or.inl ⟨h1, ?_⟩
          obtain ⟨hz, -⟩ | ⟨z, hz, hm⟩ := h2
          · exact Or.inl hz
          · refine Or.inr ⟨z, hz, ?_⟩
            simp only [List.mem_cons] at hm
            simp only [State.put]
            grind
    | joining e todo =>
      rw [hcl] at h2
      simp only [cleanStep, hcl] at hs
      repeat' split at hs
      all_goals simp only [Option.some.injEq, Prod.mk.injEq, reduceCtorEq] at hs
      obtain ⟨rfl, rfl⟩ := hs
      refine Or.inl ⟨h1, ?_⟩
      obtain hz | ⟨z, hz, hm⟩ := h2
      · exact Or.inl hz
      · refine Or.inr ⟨z, hz, ?_⟩
        simp only [State.put]
        grind
    | idle e todo =>
      rw [hcl] at h2 hok
      simp only [cleanStep, hcl] at hs
      cases hs
      obtain hz | ⟨z, hz, hm⟩ := h2
      · refine Or.inl ⟨by rw [← h1]; exact guard_cleanUp s cleaner, Or.inr ⟨s.next, ?_, Or.inl ?_⟩⟩
        · simp [State.guard, hz, State.convert, upd_same]
        · simp [State.guard, hz, State.convert]
      · obtain ⟨o, ho⟩ := Option.isSome_iff_exists.mp (hI.curS _ _ hz)
        have hg : s.guard cleaner = (s, if o.mem = .alive then [] else [.useEnv (.thread cleaner) z]) := by
          simp [State.guard, hz, ho]
        rw [hg]
        by_cases hze : z = e
        · subst hze
          have := hok.2.2.1 o ho
          exact Or.inr ⟨z, by simp [this]⟩
        · exact Or.inl ⟨h1, Or.inr ⟨z, hz, by simpa [hze] using hm⟩⟩

/-- **C91, violated on exit.** Whenever the cleaner sleeps in its `wait` when the manager is destroyed, which is where it is almost
all the time, and the destroying thread has used the library itself, the cleaner does not end without having touched a freed
env: freeing the first env gives the cleaner an env of its own, which it then frees, and frees the idle coroutine of that one
under a guard on the freed env. -/
theorem C91_exit_uses_freed {as bs : List Act} {s s1 s2 : State} {tr es tr2 : List Ev}
    (h : runs step State.init as = some (s, tr)) (hw : s.cl = .waiting) (hm : s.cur main ≠ none)
    (hd : step s .destroy = some (s1, es)) (hr : runs step s1 bs = some (s2, tr2)) (he : s2.cl = .ended) :
    ∃ e, Ev.useEnv (.thread cleaner) e ∈ tr2 := by
  have hI := inv_runs h
  have hI1 := inv_step hI hd
  have hD : Doomed s1 := by
    obtain ⟨m, hm⟩ := Option.ne_none_iff_exists'.mp hm
    simp only [step, hm] at hd
    split at hd
    · rename_i hc
      have hcu : s.cleanUp = false := by
        cases hq : s.cleanUp with
        | false => rfl
        | true => exact absurd hc.1 (hI.mp.mp hq)
      have hmn : m ∈ s.normal.filter s.noTh := by
        obtain ⟨o, ho⟩ := Option.isSome_iff_exists.mp (hI.curS _ _ hm)
        rw [List.mem_filter]
        refine ⟨hI.clN m o hcu ho ?_, hc.2.2⟩
        simpa [State.noTh, ho] using hc.2.2
      have hD1 : Doomed s.cleaned := by
        refine ⟨rfl, ?_⟩
        have : s.cleaned.cl = .waiting := hw
        rw [this]
        cases hz : s.cur cleaner with
        | none =>
          refine Or.inl ⟨hz, ?_⟩
          exact List.ne_nil_of_mem (List.mem_append_right _ hmn)
        | some z =>
          obtain ⟨o, ho⟩ := Option.isSome_iff_exists.mp (hI.curS _ _ hz)
          have hn := hI.curCl z o ho (hI.cur _ _ _ hz ho)
          refine Or.inr ⟨z, hz, Or.inr (List.mem_append_right _ ?_)⟩
          rw [List.mem_filter]
          exact ⟨hI.clN z o hcu ho hn, by simpa [State.noTh, ho] using hn⟩
      simp only [Option.some.injEq, State.setCleanUp] at hd
      split at hd
      · cases hd; exact hD1
      · cases hd
        have : s.cleaned.cur main = some m := hm
        unfold State.guard
        rw [this]
        dsimp only
        split <;> exact hD1
    · simp at hd
  have key : ∀ (bs : List Act) (s s2 : State) (tr2 : List Ev), Inv s → Doomed s → runs step s bs = some (s2, tr2) →
      Doomed s2 ∨ ∃ e, Ev.useEnv (.thread cleaner) e ∈ tr2 := by
    intro bs
    induction bs with
    | nil => intro s s2 tr2 _ hD hr; cases hr; exact Or.inl hD
    | cons b bs ih =>
      intro s s2 tr2 hI hD hr
      obtain ⟨s', e1, e2, k1, k2, rfl⟩ := runs_cons hr
      rcases doomed_step hI hD k1 with hD' | ⟨e, he⟩
      · rcases ih s' s2 e2 (inv_step hI k1) hD' k2 with hh | ⟨e, he⟩
        · exact Or.inl hh
        · exact Or.inr ⟨e, List.mem_append_right _ he⟩
      · exact Or.inr ⟨e, List.mem_append_left _ he⟩
  rcases key bs s1 s2 tr2 hI1 hD hr with ⟨-, hh⟩ | hh
  · rw [he] at hh; exact hh.elim
  · exact hh

/-- The main thread used the library, so it has an env; then the program ends. (Concerns co_manager.cpp:87-411.) -/
def plainExit : List Act := [.clean, .clean, .use main, .destroy] ++ List.replicate 11 .clean ++ [.joined]

/-- **C91, the ordinary exit.** A program whose main thread called the library once and then ends: the cleaner frees main's env 0,
thereby gets env 1, frees it and touches it. -/
theorem C91_plain_exit : (runs step State.init plainExit).map (·.2) =
    some [.made 0, .expire 0, .freed 0, .made 1, .expire 1, .freed 1, .useEnv (.thread cleaner) 1, .gone] := by rfl

example : (runs step State.init (plainExit.take 4)).map (fun r => (r.1.cl, r.1.cur main, r.1.expired)) =
    some (.waiting, some 0, [0]) := by rfl

/-- **C91, violated by running threads.** A thread of the user that goes on while the manager is destroyed uses its env, which was
freed. -/
theorem C91_running_thread : (runs step State.init [.clean, .clean, .use 2, .destroy, .clean, .clean, .use 2]).map (·.2) =
    some [.made 0, .expire 0, .freed 0, .useEnv (.thread 2) 0] := by rfl

/-- **C91, violated by `schedule_in_this_thread`.** Thread 2 schedules in its own env, is stopped and publishes its end; the
cleaner frees the env, which has no `worker__` to wait for, and thread 2 is still in `pub` of the freed event. -/
theorem C91_schedule_here : (runs step State.init
    [.clean, .clean, .use 2, .startHere 2, .stop 0, .leave 0, .expire 0, .clean, .clean, .finish 0]).map (·.2) =
    some [.made 0, .told 0, .expire 0, .freed 0, .useEnv (.thread 2) 0] := by rfl

/-- The main thread may schedule in its own env as well; another thread may begin to while main is already waiting in the destructor. -/
example : (runs step State.init [.clean, .clean, .use main, .startHere main]).map (fun r => r.1.noTh 0) = some false ∧
    (runs step State.init [.clean, .clean, .use 2, .destroy, .startHere 2]).map (fun r => (r.1.mp, r.1.noTh 0)) = some (.waiting, false) ∧
    (runs step State.init [.clean, .clean, .use main, .destroy, .startHere main]).map (·.2) = none := ⟨by rfl, by rfl, by rfl⟩

/-- The same with an env that has a thread of its own: the cleaner waits in the destructor until that thread is gone. -/
example : (runs step State.init
    [.clean, .clean, .create, .stop 0, .leave 0, .expire 0, .clean, .clean]).map (fun r => (r.1.cl, (step r.1 .clean).isSome)) =
      some (.joining 0 [], false) ∧
    (runs step State.init
      [.clean, .clean, .create, .stop 0, .leave 0, .expire 0, .clean, .clean, .finish 0, .clean]).map (·.2) =
      some [.made 0, .told 0, .expire 0, .freed 0] := ⟨by rfl, by rfl⟩

/-! ## C92: the destruction of the manager is complete -/

/-- **C92, violated in principle.** An env that is still in the set when the cleaner empties it is never freed. -/
theorem C92_dropped_leaks {as : List Act} {s : State} {tr : List Ev} (h : runs step State.init as = some (s, tr)) {e : Nat}
    (hd : Ev.dropped e ∈ tr) : Ev.freed e ∉ tr := by
  have hh := (hist_runs h).2
  obtain ⟨o, ho⟩ := Option.isSome_iff_exists.mp (hh.dropped e hd).2.2.2.2
  have h1 := hh.freed e o ho
  rw [if_neg (by simp [hh.alive e o hd ho])] at h1
  exact fun hf => absurd (List.count_pos_iff.mpr hf) (by omega)

/-- **C92, who uses the dead manager (partial).** A scheduling thread uses the manager after its destruction only if its env was in
the set when the cleaner emptied it. -/
theorem C92_manager_partial {as : List Act} {s : State} {tr : List Ev} (h : runs step State.init as = some (s, tr)) {e : Nat}
    (hu : Ev.useMan (.worker e) ∈ tr) : Ev.dropped e ∈ tr := (hist_runs h).2.man e hu

/-- From the moment the destructor finds the cleaner in its `wait`. (Concerns co_manager.cpp:87-411.) -/
structure Late (s : State) (tr : List Ev) : Prop where
  up : s.cleanUp = true
  cl : s.cl ≠ .start
  top : s.cl = .top → s.expired = []
  ended : s.cl = .ended → ∀ e o, e ∈ s.expired → s.env e = some o → o.conv = none → Ev.dropped e ∈ tr

theorem late_step {s s' : State} {a : Act} {tr es : List Ev} (hI : Inv s) (hH : Hist s tr) (h : Late s tr)
    (hs : step s a = some (s', es)) : Late s' (tr ++ es) := by
  have hev : ∀ {s : State} {es : List Ev}, Late s tr → Late s (tr ++ es) := by
    intro s es h
    exact ⟨h.up, h.cl, h.top, fun hc e o h1 h2 h3 => List.mem_append_left _ (h.ended hc e o h1 h2 h3)⟩
  have hguard : ∀ t, Late (s.guard t).1 tr := by
    intro t
    obtain ⟨f1, f2, f3⟩ := next_fresh hI
    unfold State.guard
    split
    · obtain ⟨h1, h2, h3, h4⟩ := h
      constructor <;> (try dsimp only [State.convert, State.put]) <;> grind
    · split <;> exact h
  have hput : ∀ e o o', s.env e = some o → o'.conv = o.conv → Late (s.put e o') tr := by
    intro e o o' ho hc
    obtain ⟨h1, h2, h3, h4⟩ := h
    constructor <;> (try dsimp only [State.put]) <;> grind
  cases a
  case use t =>
    simp only [step] at hs
    repeat' split at hs
    all_goals simp only [Option.some.injEq, reduceCtorEq] at hs
    · cases hs; exact hev h
    · have := hguard t; rw [hs] at this; exact hev this
    · have := hguard t; rw [hs] at this; exact hev this
  case destroy =>
    have hr := hI.mp.mp h.up
    simp only [step] at hs
    repeat' split at hs
    all_goals simp only [Option.some.injEq, reduceCtorEq] at hs
    all_goals rename_i hc; exact absurd hc.1 hr
  case clean =>
    refine hev ?_
    have hok := hI.ok
    have hcl : ∀ {s1 : State} (c : Cleaner) (sg : Bool), s1.cleanUp = true → c ≠ .start → c ≠ .top → c ≠ .ended →
        Late { s1 with cl := c, signal := sg } tr := by
      intro s1 c sg h0 h1 h2 h3
      exact ⟨h0, h1, fun h => absurd h h2, fun h => absurd h h3⟩
    have hup := h.up
    simp only [step, cleanStep] at hs
    repeat' split at hs
    all_goals simp only [Option.some.injEq, Prod.mk.injEq, reduceCtorEq] at hs
    all_goals obtain ⟨rfl, -⟩ := hs
    · exact absurd ‹s.cl = .start› h.cl
    · exact hcl _ _ hup (by simp) (by simp) (by simp)
    · rename_i hc _ _
      refine ⟨hup, by simp, by simp, ?_⟩
      intro _ e o he; have := h.top hc; dsimp only at he; simp [this] at he
    · exact hcl _ _ hup (by simp) (by simp) (by simp)
    · rename_i hq _; exact absurd hup hq
    · rename_i hq _; exact absurd hup hq
    · exact ⟨hup, by simp, by simp, by simp⟩
    · exact ⟨hup, by simp, by simp, by simp⟩
    · exact hcl _ _ (by rw [guard_cleanUp]; exact hup) (by simp) (by simp) (by simp)
    · exact ⟨hup, by simp, by simp, by simp⟩
    · exact hcl _ _ hup (by simp) (by simp) (by simp)
    · exact hcl _ _ hup (by simp) (by simp) (by simp)
    · exact hcl _ _ hup (by simp) (by simp) (by simp)
    · exact hcl _ _ (by rw [guard_cleanUp]; exact hup) (by simp) (by simp) (by simp)
  case create => crunch hs; have := h.up; grind
  case threadEnd t => crunch hs; exact hev ⟨h.up, h.cl, h.top, h.ended⟩
  case startHere t =>
    crunch hs
    · exact hev h
    · rename_i o ho _ _; exact hev (hput _ o _ ho rfl)
  case stop e => crunch hs; rename_i o ho _; exact hev (hput _ o _ ho rfl)
  case leave e => crunch hs <;> (rename_i o ho _ _; exact hev (hput _ o _ ho rfl))
  case expire e =>
    crunch hs
    · rename_i o ho _ _; exact hev (hput _ o _ ho rfl)
    · rename_i o ho hc hd
      have hdr : s.cl = .ended → o.conv = none → Ev.dropped e ∈ tr := by
        intro e1 hv
        have e2 := hH.place e o ho hv
        have e3 := hH.rest e o e1
        have e4 := hI.exp e o ho
        have e5 := hI.own e o ho hv
        grind
      refine hev ?_
      obtain ⟨h1, h2, h3, h4⟩ := h
      constructor <;> (try dsimp only [State.put, State.remove]) <;> grind
  case finish e =>
    have key : ∀ o, s.env e = some o → Late (s.put e { o with phase := .ended }) tr := fun o ho => hput _ o _ ho rfl
    crunch hs
    · rename_i o ho _ _ _ _ _
      have := key o ho
      exact hev ⟨this.up, this.cl, this.top, this.ended⟩
    · rename_i o ho _ _ _ _ _
      have := key o ho
      exact hev ⟨this.up, this.cl, this.top, this.ended⟩
    · rename_i o ho _ _ _ _; exact hev (key o ho)
    · rename_i o ho _ _ _ _; exact hev (key o ho)
  case spurious => crunch hs; exact hev ⟨h.up, by simp, by simp, by simp⟩
  case joined => crunch hs; exact hev ⟨h.up, h.cl, h.top, h.ended⟩

/-- **C92 (partial).** If the cleaner is in its `wait` when the destructor begins, and no env with a thread of its own is in the set
any more when the cleaner empties it, then every such env is freed when the destructor has returned. -/
theorem C92_complete_partial {as bs : List Act} {s s1 s2 : State} {tr es tr2 : List Ev}
    (h : runs step State.init as = some (s, tr)) (hw : s.cl = .waiting)
    (hd : step s .destroy = some (s1, es)) (hr : runs step s1 bs = some (s2, tr2)) (hm : s2.mp = .done)
    (hn : ∀ e o, s2.env e = some o → o.conv = none → Ev.dropped e ∉ tr ++ es ++ tr2)
    {e : Nat} {o : Env} (he : s2.env e = some o) (hv : o.conv = none) :
    Ev.freed e ∈ tr ++ es ++ tr2 ∧ o.phase = .ended := by
  obtain ⟨hI, hH⟩ := hist_runs h
  have hI1 := inv_step hI hd
  have hH1 := hist_step hI hH hd
  have hL : Late s1 (tr ++ es) := by
    have key : ∀ s1 es, s.setCleanUp = (s1, es) → s1.cl = .waiting ∧ s1.cleanUp = true := by
      intro s1 es hd
      unfold State.setCleanUp at hd
      split at hd
      · cases hd; exact ⟨hw, rfl⟩
      · cases hd; exact ⟨by rw [guard_cl]; exact hw, by rw [guard_cleanUp]; rfl⟩
    simp only [step] at hd
    repeat' split at hd
    all_goals simp only [Option.some.injEq, reduceCtorEq] at hd
    all_goals
      obtain ⟨k1, k2⟩ := key _ _ hd
      exact ⟨k2, by simp [k1], by simp [k1], by simp [k1]⟩
  have := runs_hist (fun s tr => Inv s ∧ Hist s tr ∧ Late s tr)
    (fun _ _ _ _ _ h hs => ⟨inv_step h.1 hs, hist_step h.1 h.2.1 hs, late_step h.1 h.2.1 h.2.2 hs⟩) bs _ _ _ _
    ⟨hI1, hH1, hL⟩ hr
  obtain ⟨g1, g2, g3⟩ := this
  have hend := g1.done hm
  have hf : o.mem = .freed := by
    rcases g2.place e o he hv with hp | hp | hp | hp
    · exact absurd hv (g2.rest e o hend hp he)
    · exact absurd (g3.ended hend e o hp he hv) (hn e o he hv)
    · exact absurd hp (hn e o he hv)
    · exact hp
  refine ⟨?_, g1.own e o he hv hf⟩
  have h1 := g2.freed e o he
  rw [if_pos hf] at h1
  exact List.count_pos_iff.mp (by omega)

/-- Env 0 has a thread; the thread is slow to stop. (Concerns co_manager.cpp:87-411.) -/
def slowExit : List Act := [.clean, .clean, .create, .destroy] ++ List.replicate 10 .clean ++ [.joined, .leave 0, .expire 0]

/-- **C92, violated.** The cleaner ends without waiting for the thread it asked to stop; that thread then calls `remove_env__` of
the manager, which is gone. Its env is not freed. -/
theorem C92_manager_used : (runs step State.init slowExit).map (·.2) =
    some [.made 0, .told 0, .made 1, .told 0, .made 2, .expire 1, .dropped 0, .dropped 2, .freed 1, .gone,
      .useMan (.worker 0)] := by rfl

/-- When the thread is quick, its env is freed. -/
example : (runs step State.init
    ([.clean, .clean, .create, .destroy, .leave 0, .expire 0, .finish 0] ++ List.replicate 4 .clean)).map (·.2) =
    some [.made 0, .told 0, .made 1, .expire 0, .freed 0, .made 2] := by rfl

/-! ## C93: the destructor returns -/

/-- **C93, it waits for nobody's code.** Once clean-up was requested, the cleaner can go on, or it waits for a scheduling thread
that has published its end and can end; when it has ended the destructor can return. -/
theorem C93_progress {as : List Act} {s : State} {tr : List Ev} (h : runs step State.init as = some (s, tr))
    (hc : s.cleanUp = true) (hd : s.mp ≠ .done) :
    (step s .clean).isSome ∨ (∃ e es, s.cl = .joining e es ∧ (step s (.finish e)).isSome) ∨
      s.cl = .ended ∧ (step s .joined).isSome := by
  have hI := inv_runs h
  have hok := hI.ok
  cases hcl : s.cl with
  | start => simp [step, cleanStep, hcl]
  | waiting => simp [step, cleanStep, hcl, hI.sig hc hcl]
  | top => by_cases hn : s.normal = [] <;> simp [step, cleanStep, hcl, hc, hn]
  | ended =>
    have h1 := hI.mp.mp hc
    have h2 : s.mp = .waiting := by cases hm : s.mp <;> simp_all
    simp [step, hcl, h2]
  | idle e es => simp [step, cleanStep, hcl]
  | stopping todo =>
    rw [hcl] at hok
    cases todo with
    | nil => simp [step, cleanStep, hcl]
    | cons e es =>
      obtain ⟨o, ho⟩ := Option.isSome_iff_exists.mp (hI.normalS e (hok.2.1 e (by simp)))
      by_cases hn : o.noThread = true <;> simp [step, cleanStep, hcl, ho, hn]
  | deleting todo =>
    rw [hcl] at hok
    cases todo with
    | nil => simp [step, cleanStep, hcl]
    | cons e es =>
      obtain ⟨o, ho⟩ := Option.isSome_iff_exists.mp (hI.mem e (hok.2.1 e (by simp)).1)
      cases hv : o.conv <;> simp [step, cleanStep, hcl, ho, hv]
  | joining e es =>
    rw [hcl] at hok
    obtain ⟨o, ho⟩ := Option.isSome_iff_exists.mp (hI.mem e hok.2.1)
    obtain ⟨k1, k2⟩ := hok.2.2.1 o ho
    rcases hI.exp e o ho (Or.inl hok.2.1) with (hp | hp) | hp
    · right; left; exact ⟨e, es, rfl, by simp [step, ho, hp]⟩
    · left; simp [step, cleanStep, hcl, ho, hp]
    · exact absurd k2 hp.1

/-- An upper bound for the steps the cleaner still has to do. (Concerns co_manager.cpp:87-411.) -/
def State.work (s : State) : Nat :=
  let z := if s.cur cleaner = none then 11 else 0
  match s.cl with
  | .top => 10 * s.normal.length + 4 * s.expired.length + z + 1
  | .stopping todo => todo.length + 4 * s.normal.length + 4 * s.expired.length + z + 3
  | .deleting todo => 4 * todo.length + 10 * s.normal.length + z + 2
  | .joining _ todo => 4 * todo.length + 10 * s.normal.length + z + 5
  | .idle _ todo => 4 * todo.length + 10 * s.normal.length + z + 4
  | _ => 0

theorem length_filter_ne {l : List Nat} {e : Nat} (hn : l.Nodup) (h : e ∈ l) : (l.filter (· != e)).length + 1 = l.length := by
  have : l.filter (· != e) = l.erase e := by rw [hn.erase_eq_filter]
  rw [this, List.length_erase_of_mem h]
  have := List.length_pos_of_mem h
  omega

/-- Of an env that changes otherwise, the cleaner sees nothing. -/
theorem work_frame {s s' : State} (h1 : s'.cl = s.cl) (h2 : s'.normal = s.normal) (h3 : s'.expired = s.expired)
    (h4 : s'.cur cleaner = s.cur cleaner) : s'.work = s.work := by
  unfold State.work; rw [h1, h2, h3, h4]

/-- The cleaner holds the lock and works towards its end, or has ended. (Concerns co_manager.cpp:87-411.) -/
def Ending (s : State) : Prop := s.cleanUp = true ∧ (s.cl.locked = true ∨ s.cl = .ended)

theorem work_step {s s' : State} {a : Act} {es : List Ev} (hI : Inv s) (h : Ending s) (hs : step s a = some (s', es)) :
    Ending s' ∧ (if a = .clean then s'.work + 1 ≤ s.work else s'.work ≤ s.work) := by
  obtain ⟨h1, h2⟩ := h
  have hE0 : ∀ {s1 : State}, s1.cleanUp = s.cleanUp → s1.cl = s.cl → Ending s1 := by
    intro s1 e1 e2; exact ⟨e1 ▸ h1, e2 ▸ h2⟩
  have hul : s.cl.locked = false → s.cl = .ended := by intro hl; simpa [hl] using h2
  have hew : ∀ {s1 : State}, s1.cl = .ended → s1.work = 0 := by intro s1 e1; simp [State.work, e1]
  have hput : ∀ e o, (s.put e o).work = s.work := fun e o => work_frame rfl rfl rfl rfl
  cases a
  case use t =>
    rw [if_neg (by simp)]
    simp only [step] at hs
    repeat' split at hs
    all_goals simp only [Option.some.injEq, reduceCtorEq] at hs
    · cases hs; exact ⟨⟨h1, h2⟩, Nat.le_refl _⟩
    · rename_i hl
      have hc := guard_cl s t
      have hu := guard_cleanUp s t
      rw [hs] at hc hu
      exact ⟨hE0 hu hc, by rw [hew (hc.trans (hul hl))]; omega⟩
    · rename_i e hcur
      have : s.guard t = (s, (s.guard t).2) := by
        unfold State.guard; rw [hcur]; dsimp only; split <;> rfl
      rw [this] at hs
      cases hs; exact ⟨⟨h1, h2⟩, Nat.le_refl _⟩
  case destroy =>
    have hr := hI.mp.mp h1
    simp only [step] at hs
    repeat' split at hs
    all_goals simp only [Option.some.injEq, reduceCtorEq] at hs
    all_goals rename_i hc; exact absurd hc.1 hr
  case create => crunch hs; grind
  case threadEnd t =>
    rw [if_neg (by simp)]
    crunch hs
    refine ⟨hE0 rfl rfl, Nat.le_of_eq (work_frame rfl rfl rfl ?_)⟩
    rename_i hc _ _ _ _
    dsimp only
    rw [upd_other]; grind
  case startHere t =>
    rw [if_neg (by simp)]
    crunch hs
    · exact ⟨⟨h1, h2⟩, Nat.le_refl _⟩
    · exact ⟨hE0 rfl rfl, Nat.le_of_eq (hput _ _)⟩
  case stop e =>
    rw [if_neg (by simp)]
    crunch hs
    exact ⟨hE0 rfl rfl, Nat.le_of_eq (hput _ _)⟩
  case leave e =>
    rw [if_neg (by simp)]
    crunch hs <;> exact ⟨hE0 rfl rfl, Nat.le_of_eq (hput _ _)⟩
  case expire e =>
    rw [if_neg (by simp)]
    crunch hs
    · exact ⟨hE0 rfl rfl, Nat.le_of_eq (hput _ _)⟩
    · rename_i o ho hc hd
      exact ⟨hE0 rfl rfl, by rw [hew (by exact hul hc.2)]; omega⟩
  case finish e =>
    rw [if_neg (by simp)]
    have key : ∀ o t, s.env e = some o → o.phase = .removed → o.conv = some t → t ≠ cleaner := by
      intro o t ho hp hv ht
      have := hI.noTh e o ho (hI.curCl e o ho (ht ▸ hv)); grind
    crunch hs
    · rename_i o ho hp _ t hv _
      refine ⟨hE0 rfl rfl, Nat.le_of_eq (work_frame rfl rfl rfl ?_)⟩
      dsimp only [State.put]; rw [upd_other]; exact (key o t ho hp hv).symm
    · rename_i o ho hp _ t hv _
      refine ⟨hE0 rfl rfl, Nat.le_of_eq (work_frame rfl rfl rfl ?_)⟩
      dsimp only [State.put]; rw [upd_other]; exact (key o t ho hp hv).symm
    · exact ⟨hE0 rfl rfl, Nat.le_of_eq (hput _ _)⟩
    · exact ⟨hE0 rfl rfl, Nat.le_of_eq (hput _ _)⟩
  case spurious => crunch hs; rename_i hc; simp [hc, Cleaner.locked] at h2
  case joined =>
    rw [if_neg (by simp)]
    crunch hs
    exact ⟨⟨h1, h2⟩, Nat.le_of_eq (work_frame rfl rfl rfl rfl)⟩
  case clean =>
    rw [if_pos rfl]
    have hok := hI.ok
    simp only [step] at hs
    have hgw : ∀ s1 : State, (s1.guard cleaner).1.expired = s1.expired ∧
        10 * (s1.guard cleaner).1.normal.length
            + (if (s1.guard cleaner).1.cur cleaner = none then 11 else 0)
          ≤ 10 * s1.normal.length + (if s1.cur cleaner = none then 11 else 0) ∧
        4 * (s1.guard cleaner).1.normal.length
            + (if (s1.guard cleaner).1.cur cleaner = none then 11 else 0)
          ≤ 4 * s1.normal.length + (if s1.cur cleaner = none then 11 else 0) := by
      intro s1
      cases hq : s1.cur cleaner with
      | none =>
        rw [if_pos rfl]
        unfold State.guard
        rw [hq]
        refine ⟨rfl, ?_, ?_⟩ <;> simp [State.convert, upd_same] <;> omega
      | some e =>
        have : (s1.guard cleaner).1 = s1 := by
          unfold State.guard; rw [hq]; dsimp only; split <;> rfl
        rw [this, hq]
        exact ⟨rfl, Nat.le_refl _, Nat.le_refl _⟩
    cases hcl : s.cl with
    | start => simp [hcl, Cleaner.locked] at h2
    | waiting => simp [hcl, Cleaner.locked] at h2
    | ended => simp [cleanStep, hcl] at hs
    | top =>
      simp only [cleanStep, hcl, h1, if_true] at hs
      split at hs
      · cases hs
        exact ⟨⟨rfl, Or.inr rfl⟩, by simp [State.work, hcl]⟩
      · rename_i hn
        cases hs
        have := List.length_pos_iff.mpr hn
        exact ⟨⟨rfl, Or.inl rfl⟩, by simp only [State.work, hcl]; omega⟩
    | stopping todo =>
      rw [hcl] at hok
      cases todo with
      | nil =>
        simp only [cleanStep, hcl] at hs
        cases hs
        exact ⟨⟨h1, Or.inl rfl⟩, by simp only [State.work, hcl, List.length_nil]; omega⟩
      | cons e todo =>
        have hen := hok.2.1 e (by simp)
        simp only [cleanStep, hcl] at hs
        repeat' split at hs
        all_goals simp only [Option.some.injEq, Prod.mk.injEq, reduceCtorEq] at hs
        · obtain ⟨rfl, rfl⟩ := hs
          have := length_filter_ne hI.ndN hen
          refine ⟨⟨h1, Or.inl rfl⟩, ?_⟩
          simp only [State.work, hcl, State.remove, List.length_append, List.length_cons, List.length_nil]
          omega
        · rename_i o ho hn
          obtain ⟨rfl, rfl⟩ := hs
          obtain ⟨e1, e2⟩ := hgw (s.put e { o with told := true })
          refine ⟨⟨by rw [← h1]; exact guard_cleanUp _ _, Or.inl rfl⟩, ?_⟩
          have e3 : _ ≤ 4 * s.normal.length + (if s.cur cleaner = none then 11 else 0) := e2.2
          have e4 : ((s.put e { o with told := true }).guard cleaner).1.expired = s.expired := e1
          simp only [State.work, hcl, List.length_cons, e4]
          omega
    | deleting todo =>
      rw [hcl] at hok
      cases todo with
      | nil =>
        simp only [cleanStep, hcl] at hs
        cases hs
        exact ⟨⟨h1, Or.inl rfl⟩, by simp only [State.work, hcl, List.length_nil]; omega⟩
      | cons e todo =>
        simp only [cleanStep, hcl] at hs
        repeat' split at hs
        all_goals simp only [Option.some.injEq, Prod.mk.injEq, reduceCtorEq] at hs
        · obtain ⟨rfl, rfl⟩ := hs
          refine ⟨⟨h1, Or.inl rfl⟩, ?_⟩
          simp only [State.work, hcl, State.put, List.length_cons]; omega
        · obtain ⟨rfl, rfl⟩ := hs
          refine ⟨⟨h1, Or.inl rfl⟩, ?_⟩
          simp only [State.work, hcl, State.put, List.length_cons]; omega
    | joining e todo =>
      simp only [cleanStep, hcl] at hs
      repeat' split at hs
      all_goals simp only [Option.some.injEq, Prod.mk.injEq, reduceCtorEq] at hs
      obtain ⟨rfl, rfl⟩ := hs
      refine ⟨⟨h1, Or.inl rfl⟩, ?_⟩
      simp only [State.work, hcl, State.put]; omega
    | idle e todo =>
      simp only [cleanStep, hcl] at hs
      cases hs
      obtain ⟨e1, e2⟩ := hgw s
      refine ⟨⟨by rw [← h1]; exact guard_cleanUp _ _, Or.inl rfl⟩, ?_⟩
      simp only [State.work, hcl]
      rw [e1]; omega

/-- **C93, it is bounded.** Once clean-up was requested and the cleaner is awake, it does no more than `work` steps, whatever the
other threads do in between. -/
theorem C93_bounded {as bs : List Act} {s s' : State} {tr tr' : List Ev} (h : runs step State.init as = some (s, tr))
    (hc : s.cleanUp = true) (hl : s.cl.locked = true) (hr : runs step s bs = some (s', tr')) :
    bs.count .clean ≤ s.work := by
  have key : ∀ (bs : List Act) (s s' : State) (tr' : List Ev), Inv s → Ending s → runs step s bs = some (s', tr') →
      bs.count .clean + s'.work ≤ s.work := by
    intro bs
    induction bs with
    | nil => intro s s' tr' _ _ hr; cases hr; simp
    | cons b bs ih =>
      intro s s' tr' hI hE hr
      obtain ⟨s1, e1, e2, k1, k2, rfl⟩ := runs_cons hr
      obtain ⟨g1, g2⟩ := work_step hI hE k1
      have := ih s1 s' e2 (inv_step hI k1) g1 k2
      rw [List.count_cons]
      by_cases hb : b = .clean
      · subst hb; simp only [if_true] at g2; simp; omega
      · rw [if_neg hb] at g2; simp [hb]; omega
  have := key bs s s' tr' (inv_runs h) ⟨hc, Or.inl hl⟩ hr
  omega

example : (runs step State.init (plainExit.take 5)).map (fun r => r.1.work) = some 17 := by rfl

end Verif.Shutdown
