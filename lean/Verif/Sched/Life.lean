import Verif.Base.Lts

/-! # Destruction of coroutine objects (C53, C54)

One env: its thread, with the idle coroutine and the shared stack, and the handles of its coroutines in other threads. The
walk of `remove_detached_ctx__` over the list, the choice of the next coroutine and the detour over the idle coroutine for
shared-stack coroutines are steps of their own. Every access of the scheduler to a coroutine object is checked: an access to
a destroyed object is the event `uaf`. -/

namespace Verif.Life

/-- `co_state` (include/cocpp/core/co_type.h). -/
inductive CSt
  | suspended | running | finished
deriving DecidableEq, Repr

/-- The object: not created yet, alive, destroyed. (Concerns co_env.cpp:216-410.) -/
inductive Fate
  | unborn | alive | freed
deriving DecidableEq, Repr

/-- A `co_ctx` (include/cocpp/core/co_ctx.h): its state, and the flags `LOCKED` (a handle is attached), `SHARED_STACK`,
`WAITING`. -/
structure Ctx where
  fate : Fate
  st : CSt
  locked : Bool
  shared : Bool
  waiting : Bool
deriving DecidableEq, Repr

/-- Where the env's thread is: in the code of the running coroutine (or in the loop of the idle one); in `schedule_switch`
before `remove_detached_ctx__` (source/cocpp/core/co_env.cpp:315); in its walk with these coroutines left; after it (316);
after the loop of `start_schedule_routine__` (413); in the walk of `remove_all_ctx__` (429-434); ended. -/
inductive Pc
  | user
  | call
  | walk (todo : List Nat)
  | switch
  | left
  | purge (todo : List Nat)
  | ended
deriving DecidableEq, Repr

/-- The env. `list`: `all_normal_ctx__`. `curr`: `curr_ctx__`, `none` stands for the null pointer, with which `current_ctx()` is
the idle coroutine. `run`: the coroutine whose stack the thread is on, `none` for the idle one. `need`, `frm`, `to`:
`shared_stack_switch_info__`. `stop`: the state is `destroying`. (co_env.h:58-159.) -/
structure State where
  ctx : Nat → Ctx
  list : List Nat
  curr : Option Nat
  run : Option Nat
  need : Bool
  frm : Option Nat
  to : Option Nat
  stop : Bool
  pc : Pc

/-- Events. `new c h`: created, with a handle or without. `fin`: finished. `drop`: the handle was detached or joined.
`destroy`: the object was destroyed. `uaf`: a destroyed object was accessed. `stopped`: `stop_schedule`. (Concerns co_env.cpp:216-410.) -/
inductive Ev
  | new (c : Nat) (handle : Bool)
  | fin (c : Nat)
  | drop (c : Nat)
  | destroy (c : Nat)
  | uaf (c : Nat)
  | stopped
deriving DecidableEq, Repr

/-- Choices. (Concerns co_env.cpp:216-410.) -/
inductive Act
  | new (c : Nat) (shared handle : Bool)
  | drop (c : Nat)
  | wake (c : Nat)
  | stop
  | yield
  | wait
  | finish
  | idle
  | begin
  | walk
  | switch (next : Option Nat)
  | signal (next : Option Nat)
  | purge
deriving DecidableEq, Repr

/-- A new env. (Concerns co_env.cpp:216-410.) -/
def State.init : State :=
  ⟨fun _ => ⟨.unborn, .suspended, false, false, false⟩, [], none, none, false, none, none, false, .user⟩

/-- Change the object of `c`. (Concerns co_env.cpp:216-410.) -/
def State.put (s : State) (c : Nat) (v : Ctx) : State := { s with ctx := fun d => if d = c then v else s.ctx d }

/-- `can_schedule` (source/cocpp/core/co_ctx.cpp:141-144). -/
def Ctx.ready (v : Ctx) : Bool := v.st != .finished && !v.waiting

/-- The accesses to the coroutines in `l`: those to destroyed ones are events. (Concerns co_env.cpp:216-410.) -/
def State.use (s : State) (l : List (Option Nat)) : List Ev :=
  l.filterMap fun o => o.bind fun c => if (s.ctx c).fate = .freed then some (.uaf c) else none

/-- `remove_ctx` (co_env.cpp:331-340): out of the list and destroyed. -/
def State.destroy (s : State) (c : Nat) : State :=
  { s.put c { s.ctx c with fate := .freed } with list := s.list.filter (· != c) }

/-- `update_ctx_state__` (co_env.cpp:230-238) for the outgoing coroutine. -/
def State.suspend (s : State) : Option Nat → State
  | none => s
  | some c => s.put c { s.ctx c with st := if (s.ctx c).st = .finished then .finished else .suspended }

/-- `update_ctx_state__` for the incoming one. `set_state` leaves a finished coroutine finished. (Concerns co_env.cpp:216-410.) -/
def State.resume (s : State) : Option Nat → State
  | none => s
  | some c => s.put c { s.ctx c with st := if (s.ctx c).st = .finished then .finished else .running }

/-- The flag `SHARED_STACK`. (Concerns co_env.cpp:216-410.) -/
def State.isShared (s : State) : Option Nat → Bool
  | none => false
  | some c => (s.ctx c).shared

/-- `next` is a possible result of `next_ctx__` (co_env.cpp:216-228): a ready coroutine of the list, or idle if there is none;
idle if the env is being destroyed. Simplified: which of the ready ones is left open (C43-C45). -/
def State.mayPick (s : State) : Option Nat → Bool
  | none => s.stop || s.list.all fun c => !(s.ctx c).ready
  | some c => !s.stop && decide (c ∈ s.list) && (s.ctx c).ready

/-- `prepare_to_switch` (co_env.cpp:241-294) and the switch itself (296-309), when `next_ctx__` returns `next`. `curr_ctx__` is
assigned by `choose_ctx_from_normal_list__`, which is not called if the env is being destroyed. -/
def State.prepare (s : State) (next : Option Nat) : State :=
  let s1 := { s with curr := if s.stop then s.curr else next }
  if s.curr = next then { s1 with pc := .user }
  else
    let s2 := (s1.suspend s.curr).resume next
    if s.isShared s.curr || s.isShared next then
      { s2 with frm := s.curr, to := next, need := true, run := none, pc := .user }
    else { s2 with run := next, pc := .user }

/-- One step.
- `new`: a coroutine is given to the env (`create_and_schedule_ctx`, source/cocpp/core/co_manager.cpp:421-439).
- `drop`: `co::detach`, or the end of `co::join` (source/cocpp/co/co.cpp:11-20, 41-62): `unlock_destroy`.
- `wake`, `wait`: the flag `WAITING`. `stop`: `stop_schedule`.
- `finish`: the end of `real_entry` (co_ctx.cpp:75-83).
- `idle`: the loop of `start_schedule_routine__` (co_env.cpp:394-410).
- `begin`, `walk`: `remove_detached_ctx__` (201-214): a copy of the list, then each coroutine of it.
- `switch`: 316-323. With `need_switch` set, `switch_shared_stack_ctx__` (367-386) looks at `from` and `to` and switches to `to`.
- `signal`: the switch signal preempts the running coroutine (co_vos_gcc_x86_64.cpp:142-165).
- `purge`: `remove_all_ctx__`. -/
def step (s : State) : Act → Option (State × List Ev)
  | .new c sh h => if (s.ctx c).fate = .unborn then
      some ({ s.put c ⟨.alive, .suspended, h, sh, false⟩ with list := s.list ++ [c] }, [.new c h]) else none
  | .drop c => if (s.ctx c).fate = .alive ∧ (s.ctx c).locked then
      some (s.put c { s.ctx c with locked := false }, [.drop c]) else none
  | .wake c => if (s.ctx c).fate = .alive then some (s.put c { s.ctx c with waiting := false }, []) else none
  | .stop => some ({ s with stop := true }, [.stopped])
  | .yield => if s.pc = .user ∧ s.run ≠ none then some ({ s with pc := .call }, []) else none
  | .wait => match s.run with
    | some c => if s.pc = .user then some ({ s.put c { s.ctx c with waiting := true } with pc := .call }, s.use [some c]) else none
    | none => none
  | .finish => match s.run with
    | some c => if s.pc = .user then
        some ({ s.put c { s.ctx c with st := .finished } with pc := .call }, s.use [some c] ++ [.fin c]) else none
    | none => none
  | .idle => if s.pc = .user ∧ s.run = none then
      if s.stop then some ({ s with pc := .left }, []) else some ({ s with pc := .call }, [])
      else none
  | .begin => match s.pc with
    | .call => some ({ s with pc := .walk s.list }, [])
    | .left => some ({ s with pc := .purge s.list }, [])
    | _ => none
  | .walk => match s.pc with
    | .walk [] => some ({ s with pc := .switch }, [])
    | .walk (c :: cs) =>
      if (s.ctx c).st = .finished ∧ (s.ctx c).locked = false ∧ s.curr ≠ some c then
        some ({ s.destroy c with pc := .walk cs }, s.use [some c] ++ [.destroy c])
      else some ({ s with pc := .walk cs }, s.use [some c])
    | _ => none
  | .switch next =>
    if s.pc = .switch then
      if s.need then some ({ s with need := false, run := s.to, pc := .user }, s.use [s.frm, s.to])
      else if s.mayPick next then some (s.prepare next, s.use [s.curr, next])
      else none
    else none
  | .signal next =>
    if s.pc = .user ∧ s.run ≠ none ∧ s.mayPick next then some (s.prepare next, s.use [s.curr, next]) else none
  | .purge => match s.pc with
    | .purge [] => some ({ s with pc := .ended }, [])
    | .purge (c :: cs) => some ({ s.destroy c with pc := .purge cs }, s.use [some c] ++ [.destroy c])
    | _ => none

/-! ## Invariants -/

/-- The coroutines a walk has still to look at. (Concerns co_env.cpp:216-410.) -/
def Pc.todo : Pc → List Nat
  | .walk l => l
  | .purge l => l
  | _ => []

/-- The thread has left its loop. (Concerns co_env.cpp:216-410.) -/
def Pc.over : Pc → Bool
  | .left => true
  | .purge _ => true
  | .ended => true
  | _ => false

/-- The env's lists have been emptied or are being emptied. (Concerns co_env.cpp:216-410.) -/
def Pc.purging : Pc → Bool
  | .purge _ => true
  | .ended => true
  | _ => false

/-- Facts about every reachable state. (Concerns co_env.cpp:216-410.) -/
structure Inv (s : State) : Prop where
  nodup : s.list.Nodup
  mem : ∀ c, c ∈ s.list ↔ (s.ctx c).fate = .alive
  todo : ∀ c, c ∈ s.pc.todo → c ∈ s.list
  todoNd : s.pc.todo.Nodup
  over : s.pc.over = true → s.run = none
  stop : s.pc.over = true → s.stop = true
  run : ∀ c, s.run = some c → s.curr = some c
  curr : ∀ c, s.curr = some c → s.pc.purging = false → c ∈ s.list
  need : s.need = true → s.run = none
  to : s.need = true → ∀ c, s.to = some c → s.curr = some c ∧ (s.ctx c).fate ≠ .unborn
  frm : s.need = true → ∀ c, s.frm = some c → (s.ctx c).fate ≠ .unborn ∧ ((s.ctx c).fate = .freed → s.pc.purging = false →
    (s.ctx c).st = .finished)
  shared : s.need = true → s.isShared s.frm = true ∨ s.isShared s.to = true

attribute [local grind =] State.put State.destroy State.isShared State.mayPick
  Pc.todo Pc.over Pc.purging Ctx.ready

local macro "crunch" hs:ident : tactic => `(tactic| (
  simp only [step] at $hs:ident
  repeat' split at $hs:ident
  all_goals first | (simp only [reduceCtorEq] at $hs:ident; done) | skip
  all_goals simp only [Option.some.injEq, Prod.mk.injEq] at $hs:ident
  all_goals (have e1 := And.left $hs:ident; have e2 := And.right $hs:ident; clear $hs:ident; subst e1; subst e2)))

theorem inv_init : Inv State.init := by
  constructor <;> simp [State.init, Pc.todo, Pc.over]

theorem suspend_spec (s : State) (o : Option Nat) :
    let u := s.suspend o
    u.list = s.list ∧ u.curr = s.curr ∧ u.run = s.run ∧ u.need = s.need ∧ u.frm = s.frm ∧ u.to = s.to ∧ u.stop = s.stop ∧
    u.pc = s.pc ∧ ∀ c, (u.ctx c).fate = (s.ctx c).fate ∧ (u.ctx c).locked = (s.ctx c).locked ∧
      (u.ctx c).shared = (s.ctx c).shared ∧ (u.ctx c).waiting = (s.ctx c).waiting ∧
      ((u.ctx c).st = .finished ↔ (s.ctx c).st = .finished) := by
  cases o <;> simp [State.suspend, State.put]
  intro c; split <;> simp_all

theorem resume_spec (s : State) (o : Option Nat) :
    let u := s.resume o
    u.list = s.list ∧ u.curr = s.curr ∧ u.run = s.run ∧ u.need = s.need ∧ u.frm = s.frm ∧ u.to = s.to ∧ u.stop = s.stop ∧
    u.pc = s.pc ∧ ∀ c, (u.ctx c).fate = (s.ctx c).fate ∧ (u.ctx c).locked = (s.ctx c).locked ∧
      (u.ctx c).shared = (s.ctx c).shared ∧ (u.ctx c).waiting = (s.ctx c).waiting ∧
      ((u.ctx c).st = .finished ↔ (s.ctx c).st = .finished) := by
  cases o <;> simp [State.resume, State.put]
  intro c; split <;> simp_all

/-- What `prepare` changes. -/
theorem prepare_spec (s : State) (next : Option Nat) :
    let u := s.prepare next
    u.list = s.list ∧ u.stop = s.stop ∧ u.pc = .user ∧ u.curr = (if s.stop then s.curr else next) ∧
    (∀ c, (u.ctx c).fate = (s.ctx c).fate ∧ (u.ctx c).locked = (s.ctx c).locked ∧
      (u.ctx c).shared = (s.ctx c).shared ∧ (u.ctx c).waiting = (s.ctx c).waiting ∧
      ((u.ctx c).st = .finished ↔ (s.ctx c).st = .finished)) ∧
    ((s.curr = next ∧ u.run = s.run ∧ u.need = s.need ∧ u.frm = s.frm ∧ u.to = s.to) ∨
     (s.curr ≠ next ∧ (s.isShared s.curr || s.isShared next) = true ∧ u.run = none ∧ u.need = true ∧ u.frm = s.curr ∧
       u.to = next) ∨
     (s.curr ≠ next ∧ (s.isShared s.curr || s.isShared next) = false ∧ u.run = next ∧ u.need = s.need ∧ u.frm = s.frm ∧
       u.to = s.to)) := by
  simp only [State.prepare]
  split
  · simp [*]
  · have h1 := suspend_spec { s with curr := if s.stop then s.curr else next } s.curr
    have h2 := resume_spec (State.suspend { s with curr := if s.stop then s.curr else next } s.curr) next
    dsimp only at h1 h2 ⊢
    split <;> grind

theorem inv_prepare {s : State} {next : Option Nat} (h : Inv s) (hm : s.mayPick next = true) (hn : s.need = false)
    (hp : s.pc.over = false) : Inv (s.prepare next) := by
  obtain ⟨h1, h2, h3, h4, h5, h6, h7, h8, h9, h10, h11, h12⟩ := h
  have hspec := prepare_spec s next
  dsimp only at hspec
  obtain ⟨p1, p2, p3, p4, p5, p6⟩ := hspec
  have hpu : s.pc.purging = false := by cases hx : s.pc <;> simp_all [Pc.purging, Pc.over]
  cases hc : s.curr <;> cases next <;> rcases p6 with p6 | p6 | p6 <;> constructor <;> grind

theorem inv_step {s s' : State} {a : Act} {es : List Ev} (h : Inv s) (hs : step s a = some (s', es)) : Inv s' := by
  cases a
  case switch next =>
    crunch hs
    · obtain ⟨h1, h2, h3, h4, h5, h6, h7, h8, h9, h10, h11, h12⟩ := h
      constructor <;> (try dsimp only) <;> first | assumption | grind
    · refine inv_prepare h ‹_› (by grind) (by grind)
  case signal next =>
    crunch hs
    have := h.need
    refine inv_prepare h (by grind) (by grind) (by grind)
  all_goals
    obtain ⟨h1, h2, h3, h4, h5, h6, h7, h8, h9, h10, h11, h12⟩ := h
    crunch hs
    all_goals constructor <;> (try dsimp only [State.put, State.destroy]) <;>
      first | assumption | grind | (cases hf : s.frm <;> cases ht : s.to <;> grind)

theorem inv_runs {as : List Act} {s : State} {tr : List Ev} (h : runs step State.init as = some (s, tr)) : Inv s :=
  runs_inv Inv (fun _ _ _ _ h hs => inv_step h hs) as _ _ _ inv_init h

theorem use_mem (s : State) (l : List (Option Nat)) (e : Ev) : e ∈ s.use l ↔ ∃ c, e = .uaf c ∧ some c ∈ l ∧ (s.ctx c).fate = .freed := by
  simp only [State.use, List.mem_filterMap]
  constructor
  · rintro ⟨o, h1, h2⟩
    cases o with
    | none => simp at h2
    | some c =>
      simp only [Option.bind_some] at h2
      split at h2
      · exact ⟨c, by simpa using h2.symm, h1, ‹_›⟩
      · simp at h2
  · rintro ⟨c, rfl, h1, h2⟩
    exact ⟨some c, h1, by simp [h2]⟩

/-- What the trace says about the objects. (Concerns co_env.cpp:216-410.) -/
structure Hist (s : State) (tr : List Ev) : Prop where
  inv : Inv s
  fin : ∀ c, (s.ctx c).st = .finished → Ev.fin c ∈ tr
  lock : ∀ c, (s.ctx c).fate ≠ .unborn → (s.ctx c).locked = false → Ev.new c false ∈ tr ∨ Ev.drop c ∈ tr
  born : ∀ c h, Ev.new c h ∈ tr → (s.ctx c).fate ≠ .unborn
  uniq : ∀ c, Ev.new c true ∈ tr → Ev.new c false ∉ tr
  freed : ∀ c, Ev.destroy c ∈ tr ↔ (s.ctx c).fate = .freed
  stop : s.stop = true → Ev.stopped ∈ tr

theorem hist_step {s s' : State} {a : Act} {es tr : List Ev} (h : Hist s tr) (hs : step s a = some (s', es)) :
    Hist s' (tr ++ es) := by
  have hi := inv_step h.inv hs
  obtain ⟨h0, h1, h2, h3, h4, h5, h6⟩ := h
  have hm := h0.mem
  have ht := h0.todo
  have hr := h0.run
  have hc := h0.curr
  have ho := h0.over
  have hstop := h0.stop
  have hu := use_mem s
  cases a
  case switch next =>
    have hspec := prepare_spec s next
    dsimp only at hspec
    crunch hs <;> refine ⟨hi, ?_, ?_, ?_, ?_, ?_, ?_⟩ <;> grind
  case signal next =>
    have hspec := prepare_spec s next
    dsimp only at hspec
    crunch hs <;> refine ⟨hi, ?_, ?_, ?_, ?_, ?_, ?_⟩ <;> grind
  all_goals
    crunch hs
    all_goals refine ⟨hi, ?_, ?_, ?_, ?_, ?_, ?_⟩ <;> (try dsimp only [State.put, State.destroy]) <;> grind

theorem hist_runs {as : List Act} {s : State} {tr : List Ev} (h : runs step State.init as = some (s, tr)) : Hist s tr := by
  have := runs_hist Hist (fun s a s' es tr h hs => hist_step h hs) as State.init s tr []
    (by refine ⟨inv_init, ?_, ?_, ?_, ?_, ?_, ?_⟩ <;> simp [State.init]) h
  simpa using this

/-! ## C53 -/

theorem destroy_step {s s' : State} {a : Act} {es : List Ev} {c : Nat} (hs : step s a = some (s', es))
    (hd : Ev.destroy c ∈ es) (hI : Inv s) :
    es = s.use [some c] ++ [Ev.destroy c] ∧
    ((∃ cs, s.pc = .walk (c :: cs) ∧ a = .walk ∧ (s.ctx c).st = .finished ∧ (s.ctx c).locked = false ∧ s.curr ≠ some c) ∨
    (∃ cs, s.pc = .purge (c :: cs))) := by
  have hu := use_mem s
  cases a <;> crunch hs <;> grind

/-- **C53, at most once**: no coroutine object is destroyed twice, in any execution. -/
theorem C53_destroyed_once {as : List Act} {s : State} {pre post : List Ev} {c : Nat}
    (h : runs step State.init as = some (s, pre ++ Ev.destroy c :: post)) : Ev.destroy c ∉ pre ∧ Ev.destroy c ∉ post := by
  obtain ⟨as1, a, as2, s1, s2, p1, p2, q1, q2, rfl, h1, h2, h3, rfl, rfl⟩ := runs_split as _ _ _ _ _ h
  have H1 := hist_runs h1
  have H2 := hist_step H1 h2
  obtain ⟨hx, hmem⟩ := destroy_step (c := c) h2 (by simp) H1.inv
  have hlist : (s1.ctx c).fate = .alive := by
    rw [← H1.inv.mem]
    apply H1.inv.todo
    rcases hmem with ⟨cs, hp, _⟩ | ⟨cs, hp⟩ <;> simp [hp, Pc.todo]
  have hn : Ev.destroy c ∉ p1 := by rw [H1.freed, hlist]; simp
  have hshape : Ev.destroy c ∉ p2 ∧ Ev.destroy c ∉ q1 := by
    have hcount := congrArg (List.count (Ev.destroy c)) hx
    have h0 : List.count (Ev.destroy c) (s1.use [some c]) = 0 := by
      rw [List.count_eq_zero, use_mem]; simp
    simp [List.count_append, h0] at hcount
    constructor
    · rw [← List.count_eq_zero]; omega
    · rw [← List.count_eq_zero]; omega
  refine ⟨by simp [hn, hshape.1], ?_⟩
  have hfreed : (s2.ctx c).fate = .freed := by rw [← H2.freed]; simp
  have key : ∀ (as : List Act) (s s' : State) (tr0 tr : List Ev), Hist s tr0 → (s.ctx c).fate = .freed →
      runs step s as = some (s', tr) → Ev.destroy c ∉ tr := by
    intro as
    induction as with
    | nil => intro s s' tr0 tr _ _ h; simp [runs] at h; simp [h.2]
    | cons a as ih =>
      intro s s' tr0 tr H hf h
      obtain ⟨u, e1, e2, k1, k2, rfl⟩ := runs_cons h
      have Hu := hist_step H k1
      have hfu : (u.ctx c).fate = .freed := by
        rw [← Hu.freed]; simp [(H.freed c).2 hf]
      have h2 := ih u s' _ e2 Hu hfu k2
      have h1 : Ev.destroy c ∉ e1 := by
        intro hd
        obtain ⟨-, this⟩ := destroy_step k1 hd H.inv
        have : c ∈ s.list := by
          apply H.inv.todo
          rcases this with ⟨cs, hp, _⟩ | ⟨cs, hp⟩ <;> simp [hp, Pc.todo]
        rw [H.inv.mem, hf] at this
        simp at this
      simp [h1, h2]
  have := key as2 s2 s _ q2 H2 hfreed h3
  simp [hshape.2, this]

/-- **C53, as long as no env is stopped**: an object is destroyed only after its coroutine finished and its handle, if it had
one, was detached or joined, and the thread is then on the stack of another coroutine. What is missing: `remove_all_ctx__`
(`C53_stop_destroys`). -/
theorem C53_destroyed_rightly_partial {as : List Act} {s : State} {pre post : List Ev} {c : Nat}
    (h : runs step State.init as = some (s, pre ++ Ev.destroy c :: post)) (hstop : Ev.stopped ∉ pre) :
    Ev.fin c ∈ pre ∧ (Ev.new c true ∈ pre → Ev.drop c ∈ pre) ∧
      ∃ as1 as2 s1 p1 p2, as = as1 ++ Act.walk :: as2 ∧ runs step State.init as1 = some (s1, p1) ∧ pre = p1 ++ p2 ∧
        s1.run ≠ some c := by
  obtain ⟨as1, a, as2, s1, s2, p1, p2, q1, q2, rfl, h1, h2, h3, rfl, rfl⟩ := runs_split as _ _ _ _ _ h
  have H1 := hist_runs h1
  obtain ⟨hx, hmem⟩ := destroy_step (c := c) h2 (by simp) H1.inv
  rcases hmem with ⟨cs, hp, rfl, hf, hl, hc⟩ | ⟨cs, hp⟩
  · have hin : c ∈ s1.list := H1.inv.todo c (by simp [hp, Pc.todo])
    have ha : (s1.ctx c).fate = .alive := (H1.inv.mem c).1 hin
    refine ⟨by simp [H1.fin c hf], ?_, ?_⟩
    · intro hn
      have hsub : ∀ e, e ∈ p2 → e ∈ s1.use [some c] ∨ e = Ev.destroy c := by
        intro e he
        have : e ∈ p2 ++ Ev.destroy c :: q1 := by simp [he]
        rw [hx] at this
        simpa using this
      have hn1 : Ev.new c true ∈ p1 := by
        rcases List.mem_append.1 hn with hn | hn
        · exact hn
        · rcases hsub _ hn with hn | hn
          · rw [use_mem] at hn; simp at hn
          · simp at hn
      rcases H1.lock c (by simp [ha]) hl with h | h
      · exact absurd h (H1.uniq c hn1)
      · simp [h]
    · exact ⟨as1, as2, s1, p1, p2, rfl, h1, rfl, fun hr => hc (H1.inv.run c hr)⟩
  · exact absurd (H1.stop (H1.inv.stop (by simp [hp, Pc.over]))) (by simp at hstop; exact hstop.1)

theorem purge_all : ∀ (l : List Nat) (s : State), s.pc = .purge l →
    ∃ s' tr, runs step s (List.replicate (l.length + 1) .purge) = some (s', tr) ∧ s'.pc = .ended ∧ ∀ c ∈ l, Ev.destroy c ∈ tr
  | [], s, h => ⟨{ s with pc := .ended }, [], by simp [runs, step, h], rfl, by simp⟩
  | c :: l, s, h => by
    obtain ⟨s', tr, h1, h2, h3⟩ := purge_all l { s.destroy c with pc := .purge l } rfl
    refine ⟨s', s.use [some c] ++ [.destroy c] ++ tr, ?_, h2, ?_⟩
    · rw [List.length_cons, List.replicate_succ]
      simp [runs, step, h, h1]
    · intro d hd
      rcases List.mem_cons.1 hd with rfl | hd
      · simp
      · simp [h3 d hd]

/-- **C53 is false when an env is stopped**: whenever the thread has left its loop, `remove_all_ctx__` destroys all coroutines
of the env, finished or not, with handles or without. -/
theorem C53_stop_destroys {s : State} (h : s.pc = .left) :
    ∃ s' tr, runs step s (.begin :: List.replicate (s.list.length + 1) .purge) = some (s', tr) ∧ s'.pc = .ended ∧
      ∀ c ∈ s.list, Ev.destroy c ∈ tr := by
  obtain ⟨s', tr, h1, h2, h3⟩ := purge_all s.list { s with pc := .purge s.list } rfl
  exact ⟨s', tr, by simp [runs, step, h, h1], h2, h3⟩

/-- The events of a schedule. (Concerns co_env.cpp:216-410.) -/
def events (as : List Act) : Option (List Ev) := (runs step State.init as).map (·.2)

/-- A coroutine with a handle that never ran is destroyed when the env is stopped. -/
example : events [.new 1 false true, .stop, .idle, .begin, .purge] = some [.new 1 true, .stopped, .destroy 1] := by decide

/-- A coroutine runs, finishes, its handle is detached, and it is destroyed by the next call of the scheduler. -/
example : events [.new 1 false true, .idle, .begin, .walk, .walk, .switch (some 1), .finish, .begin, .walk, .walk, .switch none,
    .drop 1, .idle, .begin, .walk] = some [.new 1 true, .fin 1, .drop 1, .destroy 1] := by decide

/-! ## C54 -/

/-- **C54, the only cause**: the scheduler accesses a destroyed coroutine only when it carries out the switch it prepared for a
shared-stack coroutine, and the coroutine it comes from has finished. -/
theorem C54_only_cause {as : List Act} {s : State} {pre post : List Ev} {c : Nat}
    (h : runs step State.init as = some (s, pre ++ Ev.uaf c :: post)) :
    Ev.fin c ∈ pre ∧ Ev.destroy c ∈ pre ∧ ∃ as1 n as2 s1 p1, as = as1 ++ Act.switch n :: as2 ∧
      runs step State.init as1 = some (s1, p1) ∧ s1.need = true ∧ s1.frm = some c ∧
      (s1.isShared s1.frm = true ∨ s1.isShared s1.to = true) := by
  obtain ⟨as1, a, as2, s1, s2, p1, p2, q1, q2, rfl, h1, h2, h3, rfl, rfl⟩ := runs_split as _ _ _ _ _ h
  have H1 := hist_runs h1
  have hu := use_mem s1
  have hm : Ev.uaf c ∈ p2 ++ Ev.uaf c :: q1 := by simp
  generalize p2 ++ Ev.uaf c :: q1 = es at h2 hm
  have key : (s1.ctx c).fate = .freed ∧ (∃ n, a = .switch n) ∧ s1.need = true ∧ s1.frm = some c ∧ s1.pc = .switch := by
    obtain ⟨⟨i1, i2, i3, i4, i5, i6, i7, i8, i9, i10, i11, i12⟩, -, -, -, -, -, -⟩ := H1
    cases a <;> crunch h2 <;> grind
  obtain ⟨k1, ⟨n, rfl⟩, k2, k3, k4⟩ := key
  have hst := (H1.inv.frm k2 c k3).2 k1 (by simp [k4, Pc.purging])
  exact ⟨by simp [H1.fin c hst], by simp [(H1.freed c).2 k1], as1, n, as2, s1, p1, rfl, h1, k2, k3, H1.inv.shared k2⟩

/-- Without shared-stack coroutines no coroutine has the flag. -/
theorem no_shared : ∀ (as : List Act) (s s' : State) (tr : List Ev), (∀ c h, Act.new c true h ∉ as) →
    (∀ c, (s.ctx c).shared = false) → runs step s as = some (s', tr) → ∀ c, (s'.ctx c).shared = false
  | [], s, s', tr, _, h0, h => by simp [runs] at h; rw [← h.1]; exact h0
  | a :: as, s, s', tr, hn, h0, h => by
    obtain ⟨u, e1, e2, k1, k2, rfl⟩ := runs_cons h
    refine no_shared as u s' e2 (fun c h hc => hn c h (by simp [hc])) ?_ k2
    have hna : ∀ c h, a ≠ Act.new c true h := fun c h e => hn c h (by simp [e])
    have hspec := fun n => prepare_spec s n
    dsimp only at hspec
    cases a <;> crunch k1 <;> grind

/-- **C54, without shared-stack coroutines**: no destroyed coroutine is ever accessed by the scheduler. What is missing:
coroutines on the shared stack (`C54_shared_stack_used_after_free`). -/
theorem C54_no_shared_partial {as : List Act} {s : State} {tr : List Ev} {c : Nat} (hn : ∀ c h, Act.new c true h ∉ as)
    (h : runs step State.init as = some (s, tr)) : Ev.uaf c ∉ tr := by
  intro hm
  obtain ⟨pre, post, rfl⟩ := List.append_of_mem hm
  obtain ⟨_, _, as1, n, as2, s1, p1, rfl, h1, _, _, hs⟩ := C54_only_cause h
  have := no_shared as1 _ s1 p1 (fun c h hc => hn c h (by simp [hc])) (by simp [State.init]) h1
  cases hf : s1.frm <;> cases ht : s1.to <;> simp [State.isShared, hf, ht, this] at hs

/-- A walk over a list with `c` in it destroys `c` if it has finished, is not locked and is not the current one. -/
theorem walk_all {c : Nat} : ∀ (l : List Nat) (s : State), s.pc = .walk l → (c ∈ l ∧ (s.ctx c).st = .finished ∧
    (s.ctx c).locked = false ∧ s.curr ≠ some c ∨ (s.ctx c).fate = .freed) →
    ∃ s' tr, runs step s (List.replicate (l.length + 1) .walk) = some (s', tr) ∧ s'.pc = .switch ∧ s'.need = s.need ∧
      s'.frm = s.frm ∧ s'.to = s.to ∧ (s'.ctx c).fate = .freed
  | [], s, h, hc => ⟨{ s with pc := .switch }, [], by simp [runs, step, h], rfl, rfl, rfl, rfl, by simpa using hc⟩
  | d :: l, s, h, hc => by
    rw [List.length_cons, List.replicate_succ]
    by_cases hd : (s.ctx d).st = .finished ∧ (s.ctx d).locked = false ∧ s.curr ≠ some d
    · obtain ⟨s', tr, h1, h2, h3, h4, h5, h6⟩ := walk_all (c := c) l { s.destroy d with pc := .walk l } rfl (by
        by_cases e : c = d
        · subst e; right; simp [State.destroy, State.put]
        · simp [State.destroy, State.put, e]; rcases hc with hc | hc
          · left; simpa [e] using hc
          · right; exact hc)
      refine ⟨s', s.use [some d] ++ [.destroy d] ++ tr, ?_, h2, h3, h4, h5, h6⟩
      simp only [runs, step, h, if_pos hd, h1]
    · obtain ⟨s', tr, h1, h2, h3, h4, h5, h6⟩ := walk_all (c := c) l { s with pc := .walk l } rfl (by
        rcases hc with ⟨hc, hq⟩ | hc
        · rcases List.mem_cons.1 hc with rfl | hc
          · exact absurd hq hd
          · left; exact ⟨hc, hq⟩
        · right; exact hc)
      refine ⟨s', s.use [some d] ++ tr, ?_, h2, h3, h4, h5, h6⟩
      simp only [runs, step, h, if_neg hd, h1]

/-- **C54 is false for shared-stack coroutines**: whenever the running coroutine has finished without a handle and the scheduler
goes to another one, and one of the two is on the shared stack, then the continuation without interference destroys the finished
coroutine (co_env.cpp:315) and accesses it afterwards (372). -/
theorem C54_shared_stack_used_after_free {s : State} {c : Nat} {next : Option Nat} (hr : s.curr = some c)
    (hin : c ∈ s.list) (hf : (s.ctx c).st = .finished) (hl : (s.ctx c).locked = false) (hpc : s.pc = .switch)
    (hn : s.need = false) (hs : s.stop = false) (hp : s.mayPick next = true)
    (hsh : s.isShared (some c) = true ∨ s.isShared next = true) :
    ∃ s' tr, runs step s (.switch next :: .idle :: .begin :: List.replicate (s.list.length + 1) .walk ++ [.switch none]) =
      some (s', tr) ∧ Ev.uaf c ∈ tr := by
  have hne : s.curr ≠ next := by
    rintro rfl
    rw [hr] at hp
    simp [State.mayPick, Ctx.ready, hf] at hp
  have hspec := prepare_spec s next
  dsimp only at hspec
  obtain ⟨p1, p2, p3, p4, p5, p6⟩ := hspec
  rcases p6 with p6 | p6 | p6
  · exact absurd p6.1 hne
  · obtain ⟨-, -, q1, q2, q3, q4⟩ := p6
    obtain ⟨s', tr, h1, h2, h3, h4, h5, h6⟩ := walk_all (c := c) s.list { s.prepare next with pc := .walk s.list } rfl (by
      left
      refine ⟨hin, (p5 c).2.2.2.2.2 hf, by rw [(p5 c).2.1, hl], ?_⟩
      dsimp only
      rw [p4, hs]; simp; rw [← hr]; exact fun e => hne e.symm)
    have e1 : step s (.switch next) = some (s.prepare next, s.use [s.curr, next]) := by simp [step, hpc, hn, hp]
    have e2 : step (s.prepare next) .idle = some ({ s.prepare next with pc := .call }, []) := by simp [step, p3, q1, p2, hs]
    have e3 : step { s.prepare next with pc := .call } .begin = some ({ s.prepare next with pc := .walk s.list }, []) := by
      simp [step, p1]
    have e4 : runs step s' [.switch none] = some ({ s' with need := false, run := s'.to, pc := .user }, s'.use [s'.frm, s'.to] ++ []) := by
      simp [runs, step, h2, h3, q2]
    have e5 := runs_append h1 e4
    refine ⟨{ s' with need := false, run := s'.to, pc := .user }, s.use [s.curr, next] ++ ([] ++ ([] ++ (tr ++ (s'.use [s'.frm, s'.to] ++ [])))), ?_, ?_⟩
    · simp only [List.cons_append, runs, e1, e2, e3, e5]
    · have : Ev.uaf c ∈ s'.use [s'.frm, s'.to] := by
        rw [use_mem]; exact ⟨c, rfl, by simp [h4, q3, hr], h6⟩
      simp [this]
  · rw [hr] at p6
    rcases hsh with h | h <;> simp [h] at p6

/-- A shared-stack coroutine without a handle finishes. -/
example : events [.new 1 true false, .idle, .begin, .walk, .walk, .switch (some 1), .idle, .begin, .walk, .walk, .switch none,
    .finish, .begin, .walk, .walk, .switch none, .idle, .begin, .walk, .walk, .switch none] =
    some [.new 1 false, .fin 1, .destroy 1, .uaf 1] := by decide

/-- An ordinary coroutine finishes without a handle and the next one is on the shared stack. -/
example : events [.new 1 false false, .idle, .begin, .walk, .walk, .switch (some 1), .new 2 true false, .finish, .begin, .walk,
    .walk, .walk, .switch (some 2), .idle, .begin, .walk, .walk, .walk, .switch none] =
    some [.new 1 false, .new 2 false, .fin 1, .destroy 1, .uaf 1] := by decide

end Verif.Life
