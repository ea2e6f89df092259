import Verif.Sched.Life

/-! # Handles: class `co` (C88, C89, C90)

Any number of handles in any number of threads, over one env as in Verif/Sched/Life.lean: the coroutine objects a handle points to are those
the scheduler destroys. A wait that blocks is two steps, its start and its end; everything may happen in between. The rule for clients is
the usual one: while an operation that changes a handle is in progress, no other operation on that handle is.

Simplified: `wait_ctx` is its start, the state of the target at its end, and the delivery of the exception (Verif/Sched/Wait.lean has its
steps); `check_and_rethrow_exception` is one step (C49 is about two waiters inside it). -/

namespace Verif.Handle

/-- A variable of type `co`: not constructed (or destructed), `ctx__` null, or pointing to a coroutine (include/cocpp/co/co_co.h:36). -/
inductive Hd
  | raw
  | empty
  | own (c : Nat)
deriving DecidableEq, Repr

/-- Operations that wait for the coroutine: `wait<void>()`, `wait<T>()`, `wait_for`/`wait_until` (co_co.h:140-167), `join()`,
`~co()`, `operator=(co &&)` from the handle `g` (source/cocpp/co/co.cpp:31-62, 70-79). -/
inductive Kind
  | wait
  | waitVal
  | waitFor
  | join
  | dtor
  | assign (g : Nat)
deriving DecidableEq, Repr

/-- Does the operation leave the handle as it is? (Concerns co.cpp:11-79, co_co.h:36-167.) -/
def Kind.isWait : Kind → Bool
  | .wait | .waitVal | .waitFor => true
  | _ => false

/-- Functions that look at the coroutine without waiting: `name()` (co.cpp:22-29); `ctx_state()`, `ctx_priority()` and the other
forwarded members (co_co.h:54-63). -/
inductive Query
  | name
  | member
deriving DecidableEq, Repr

/-- Who calls: a coroutine, or a thread that is not running a coroutine: its env's `curr_ctx__` is null. (Concerns co.cpp:11-79, co_co.h:36-167.) -/
inductive Who
  | co (c : Nat)
  | thread (t : Nat)
deriving DecidableEq, Repr

/-- An operation in progress: the caller is inside `wait_ctx(c)`. (Concerns co.cpp:11-79, co_co.h:36-167.) -/
structure Op where
  who : Who
  h : Nat
  c : Nat
  kind : Kind
deriving DecidableEq, Repr

/-- `exc c`: `exception__` of the coroutine is set (co_ctx.cpp:67-74). `dead`: the program is gone: `std::terminate`, or undefined
behaviour. -/
structure State where
  life : Life.State
  hd : Nat → Hd
  exc : Nat → Bool
  ops : List Op
  dead : Bool

/-- Events. `fin c`: the function of the coroutine ended; `threw c`: with an exception. `det c`: the handle of `c` was detached. `give c`: it was delivered to a waiter. `rel c`: `unlock_destroy()`
was called for `c`. `ret`: an operation returned, `threw` if with an exception. `null h`: the null pointer of an empty handle
was dereferenced. `uaf c`: an operation accessed a destroyed coroutine object. `terminate who c`: `std::terminate`.
`stopped`: `stop_schedule`. (Concerns co.cpp:11-79, co_co.h:36-167.) -/
inductive Ev
  | new (c : Nat)
  | fin (c : Nat)
  | det (c : Nat)
  | threw (c : Nat)
  | give (c : Nat)
  | rel (c : Nat)
  | ret (who : Who) (h : Nat) (threw : Bool)
  | null (h : Nat)
  | uaf (c : Nat)
  | terminate (who : Who) (c : Nat)
  | stopped
deriving DecidableEq, Repr

/-- Choices. `life`: a step of the scheduler, or of code that has nothing to do with handles; `finish`: the running coroutine's function ends,
normally or with an exception. (Concerns co.cpp:11-79, co_co.h:36-167.) -/
inductive Act
  | life (a : Life.Act)
  | finish (throws : Bool)
  | create (h c : Nat) (shared : Bool)
  | move (h g : Nat)
  | detach (h : Nat)
  | query (h : Nat) (k : Query)
  | start (who : Who) (h : Nat) (kind : Kind)
  | done (who : Who) (timeout : Bool)
deriving DecidableEq, Repr

/-- No handle yet. (Concerns co.cpp:11-79, co_co.h:36-167.) -/
def State.init : State := ⟨Life.State.init, fun _ => .raw, fun _ => false, [], false⟩

/-- An operation that uses `h` is in progress. (Concerns co.cpp:11-79, co_co.h:36-167.) -/
def State.used (s : State) (h : Nat) : Bool := s.ops.any fun o => o.h == h || o.kind == .assign h

/-- An operation that changes `h` is in progress. (Concerns co.cpp:11-79, co_co.h:36-167.) -/
def State.held (s : State) (h : Nat) : Bool := s.ops.any fun o => (o.h == h && !o.kind.isWait) || o.kind == .assign h

/-- The caller is in an operation. (Concerns co.cpp:11-79, co_co.h:36-167.) -/
def State.inOp (s : State) (who : Who) : Bool := s.ops.any fun o => o.who == who

/-- An access to the object of `c`. (Concerns co.cpp:11-79, co_co.h:36-167.) -/
def State.access (s : State) (c : Nat) : List Ev := if (s.life.ctx c).fate = .freed then [.uaf c] else []

/-- `unlock_destroy()` (co_ctx.cpp:156-159). -/
def State.release (s : State) (c : Nat) : State × List Ev :=
  match Life.step s.life (.drop c) with
  | some (l, _) => ({ s with life := l }, [.rel c])
  | none => (s, [.rel c] ++ s.access c)

/-- What follows the wait for `c`: nothing for the waits; in `join()` the release, and the rethrow if the wait threw (co.cpp:52-61); the
destructor and `operator=` are `noexcept`. `operator=` then takes the pointer of the source (co.cpp:75-76). -/
def State.leave (s : State) (o : Op) (threw : Bool) : State × List Ev :=
  match o.kind with
  | .wait | .waitVal | .waitFor => (s, [.ret o.who o.h threw])
  | .join =>
    let r := s.release o.c
    ({ r.1 with hd := upd s.hd o.h .empty }, r.2 ++ [.ret o.who o.h threw])
  | .dtor =>
    let r := s.release o.c
    if threw then ({ r.1 with hd := upd s.hd o.h .empty, dead := true }, r.2 ++ [.terminate o.who o.c])
    else ({ r.1 with hd := upd s.hd o.h .raw }, r.2 ++ [.ret o.who o.h false])
  | .assign g =>
    let r := s.release o.c
    if threw then ({ r.1 with hd := upd s.hd o.h .empty, dead := true }, r.2 ++ [.terminate o.who o.c])
    else ({ r.1 with hd := upd (upd s.hd o.h (s.hd g)) g .empty }, r.2 ++ [.ret o.who o.h false])

/-- May the operation start? (Concerns co.cpp:11-79, co_co.h:36-167.) -/
def State.may (s : State) (who : Who) (h : Nat) (k : Kind) : Bool :=
  !s.inOp who && (if k.isWait then !s.held h else !s.used h) &&
    match k with
    | .assign g => !s.used g && decide (s.hd g ≠ .raw)
    | _ => true

/-- An operation on an empty handle: `wait<void>` returns at once (co_co.h:149-152), so `join()` has nothing to do; `wait<T>` and
`wait_for` pass the null pointer to `wait_ctx` (co_co.h:143, 159). There it is compared with `curr_ctx__`
(source/cocpp/core/co_env.cpp:101-104, 156-159): null when the caller is no coroutine, so "can't wait self" is thrown; otherwise it is
dereferenced (co_env.cpp:108, 162). -/
def State.startEmpty (s : State) (who : Who) (h : Nat) : Kind → State × List Ev
  | .waitVal | .waitFor =>
    match who with
    | .thread _ => (s, [.ret who h true])
    | .co _ => ({ s with dead := true }, [.null h])
  | .wait | .join => (s, [.ret who h false])
  | .dtor => ({ s with hd := upd s.hd h .raw }, [.ret who h false])
  | .assign g =>
    if g = h then (s, [.ret who h false])
    else ({ s with hd := upd (upd s.hd h (s.hd g)) g .empty }, [.ret who h false])

/-- An operation on a handle of `c`: `operator=` from itself does nothing (co.cpp:72); waiting for oneself throws at once
(co_env.cpp:101-104, 156-159); otherwise the wait begins by accessing the coroutine. -/
def State.startOwn (s : State) (who : Who) (h c : Nat) (k : Kind) : State × List Ev :=
  if k = .assign h then (s, [.ret who h false])
  else if who = .co c then s.leave ⟨who, h, c, k⟩ true
  else ({ s with ops := ⟨who, h, c, k⟩ :: s.ops }, s.access c)

/-- The end of the wait of `o`: the coroutine has finished, or the time is over (co_env.cpp:145-151, 182-186). -/
def State.endOp (s : State) (o : Op) (timeout : Bool) : Option (State × List Ev) :=
  let s1 := { s with ops := s.ops.filter (· != o) }
  if (s.life.ctx o.c).st = .finished then
    let r := ({ s1 with exc := upd s.exc o.c false } : State).leave o (s.exc o.c)
    some (r.1, s.access o.c ++ (if s.exc o.c then [.give o.c] else []) ++ r.2)
  else if timeout ∧ o.kind = .waitFor then some (s1, s.access o.c ++ [.ret o.who o.h false])
  else none

/-- One step.
- `create`: the constructor (co_co.h:103-138): a new coroutine, `lock_destroy` set (source/cocpp/core/co_manager.cpp:421-439).
- `move`: the move constructor (co.cpp:64-68).
- `detach`: co.cpp:11-20. -/
def step (s : State) (a : Act) : Option (State × List Ev) :=
  if s.dead then none else
  match a with
  | .life a =>
    match a with
    | .new _ _ true | .drop _ | .finish => none
    | _ => (Life.step s.life a).map fun r => ({ s with life := r.1 }, if a = .stop then [.stopped] else [])
  | .finish throws =>
    match s.life.run with
    | none => none
    | some c => (Life.step s.life .finish).map fun r =>
        ({ s with life := r.1, exc := upd s.exc c throws }, .fin c :: if throws then [.threw c] else [])
  | .create h c sh =>
    if s.hd h = .raw then
      (Life.step s.life (.new c sh true)).map fun r => ({ s with life := r.1, hd := upd s.hd h (.own c) }, [.new c])
    else none
  | .move h g =>
    if s.hd h = .raw ∧ s.hd g ≠ .raw ∧ s.used g = false then some ({ s with hd := upd (upd s.hd h (s.hd g)) g .empty }, []) else none
  | .detach h =>
    if s.used h then none else
    match s.hd h with
    | .raw => none
    | .empty => some (s, [])
    | .own c => let r := s.release c
      some ({ r.1 with hd := upd s.hd h .empty }, .det c :: r.2)
  | .query h k =>
    if s.held h then none else
    match s.hd h, k with
    | .raw, _ => none
    | .empty, .name => some (s, [])
    | .empty, .member => some ({ s with dead := true }, [.null h])
    | .own c, _ => some (s, s.access c)
  | .start who h k =>
    if s.may who h k then
      match s.hd h with
      | .raw => none
      | .empty => some (s.startEmpty who h k)
      | .own c => some (s.startOwn who h c k)
    else none
  | .done who timeout =>
    match s.ops.find? fun o => o.who == who with
    | none => none
    | some o => s.endOp o timeout

/-! ## Invariant -/

attribute [local grind =] Life.State.put Life.State.destroy Life.State.isShared Life.Pc.over Life.Pc.todo

local macro "crunch" hs:ident : tactic => `(tactic| (
  simp only [Life.step] at $hs:ident
  repeat' split at $hs:ident
  all_goals first | (simp only [reduceCtorEq] at $hs:ident; done) | skip
  all_goals simp only [Option.some.injEq, Prod.mk.injEq] at $hs:ident
  all_goals (have e1 := And.left $hs:ident; have e2 := And.right $hs:ident; clear $hs:ident; subst e1; subst e2)))

/-- What a step of the scheduler does not do to coroutine objects that have a handle. -/
theorem life_frame {l l' : Life.State} {a : Life.Act} {es : List Life.Ev} (hI : Life.Inv l) (hs : Life.step l a = some (l', es))
    (ha : ∀ c sh, a ≠ .new c sh true) (hd : ∀ c, a ≠ .drop c) :
    (∀ c, ((l.ctx c).fate ≠ .unborn → (l'.ctx c).locked = (l.ctx c).locked) ∧
    ((l.ctx c).fate = .unborn → (l'.ctx c).fate ≠ .unborn → (l'.ctx c).locked = false) ∧
    ((l.ctx c).fate ≠ .unborn → (l'.ctx c).fate ≠ .unborn) ∧
    ((l.ctx c).fate = .freed → (l'.ctx c).fate = .freed) ∧
    ((l'.ctx c).fate = .alive → (l'.ctx c).locked = true → (l.ctx c).fate = .alive) ∧
    ((l'.ctx c).fate = .freed → (l.ctx c).fate ≠ .unborn → (l.ctx c).locked = true → l'.stop = false → (l.ctx c).fate = .freed) ∧
    ((l'.ctx c).st = .finished → (l.ctx c).st = .finished ∨ (a = .finish ∧ l.run = some c))) ∧
    (l'.stop = true ↔ (l.stop = true ∨ a = .stop)) := by
  have ho := hI.over
  have hm := hI.mem
  have ht := hI.todo
  have hstop := hI.stop
  cases a
  case switch next =>
    have hspec := Life.prepare_spec l next
    dsimp only at hspec
    crunch hs <;> grind
  case signal next =>
    have hspec := Life.prepare_spec l next
    dsimp only at hspec
    crunch hs <;> grind
  all_goals
    crunch hs
    all_goals (try dsimp only [Life.State.put, Life.State.destroy]) <;> grind

/-- The callers and handles of the operations in progress. (Concerns co.cpp:11-79, co_co.h:36-167.) -/
structure OpsOk (hd : Nat → Hd) (ops : List Op) : Prop where
  tgt : ∀ o ∈ ops, hd o.h = .own o.c
  excl : ∀ o ∈ ops, ∀ o' ∈ ops, o.h = o'.h → o = o' ∨ (o.kind.isWait = true ∧ o'.kind.isWait = true)
  src : ∀ o ∈ ops, ∀ g, o.kind = .assign g → hd g ≠ .raw ∧ ∀ o' ∈ ops, o'.h ≠ g ∧ (o'.kind = .assign g → o' = o)
  who : ∀ o ∈ ops, ∀ o' ∈ ops, o.who = o'.who → o = o'

/-- Facts about every reachable state. (Concerns co.cpp:11-79, co_co.h:36-167.) -/
structure Inv (s : State) : Prop where
  life : Life.Inv s.life
  uniq : ∀ h g c, s.hd h = .own c → s.hd g = .own c → h = g
  own : ∀ h c, s.hd h = .own c → (s.life.ctx c).fate ≠ .unborn ∧ (s.life.ctx c).locked = true
  lock : ∀ c, (s.life.ctx c).fate = .alive → (s.life.ctx c).locked = true → ∃ h, s.hd h = .own c
  live : ∀ h c, s.hd h = .own c → (s.life.ctx c).fate = .freed → s.life.stop = true
  ops : OpsOk s.hd s.ops

theorem inv_init : Inv State.init := by
  constructor <;> first | exact Life.inv_init | (constructor <;> simp [State.init]) | simp [State.init, Life.State.init]

theorem release_spec {s : State} {c : Nat} (hI : Life.Inv s.life) (hb : (s.life.ctx c).fate ≠ .unborn)
    (hl : (s.life.ctx c).locked = true) :
    let r := s.release c
    r.1.hd = s.hd ∧ r.1.exc = s.exc ∧ r.1.ops = s.ops ∧ r.1.dead = s.dead ∧ r.1.life.stop = s.life.stop ∧ Life.Inv r.1.life ∧
    (∀ d, (r.1.life.ctx d).fate = (s.life.ctx d).fate ∧ (r.1.life.ctx d).st = (s.life.ctx d).st ∧
      (d ≠ c → (r.1.life.ctx d).locked = (s.life.ctx d).locked)) ∧
    ((s.life.ctx c).fate = .alive → (r.1.life.ctx c).locked = false) ∧
    r.2 = .rel c :: s.access c := by
  cases hf : (s.life.ctx c).fate with
  | unborn => exact absurd hf hb
  | alive =>
    have h1 : Life.step s.life (.drop c) =
        some (s.life.put c { s.life.ctx c with locked := false }, [.drop c]) := by simp [Life.step, hf, hl]
    have h2 := Life.inv_step hI h1
    simp only [State.release, h1, State.access]
    refine ⟨trivial, trivial, trivial, trivial, rfl, h2, ?_, ?_, ?_⟩ <;> grind
  | freed =>
    have h1 : Life.step s.life (.drop c) = none := by simp [Life.step, hf]
    simp only [State.release, h1, State.access, hf]
    simp [hI]

theorem OpsOk.upd {hd hd' : Nat → Hd} {ops : List Op} (h : OpsOk hd ops)
    (hu : ∀ g, hd' g ≠ hd g → ∀ o ∈ ops, o.h ≠ g ∧ o.kind ≠ .assign g) : OpsOk hd' ops := by
  obtain ⟨h1, h2, h3, h4⟩ := h
  constructor <;> grind

theorem OpsOk.filter {hd : Nat → Hd} {ops : List Op} (h : OpsOk hd ops) (p : Op → Bool) : OpsOk hd (ops.filter p) := by
  obtain ⟨h1, h2, h3, h4⟩ := h
  constructor <;> grind

/-- What the trace says about a reachable state. (Concerns co.cpp:11-79, co_co.h:36-167.) -/
structure Hist (s : State) (tr : List Ev) : Prop where
  inv : Inv s
  held : ∀ h c, s.hd h = .own c → Ev.new c ∈ tr ∧ Ev.rel c ∉ tr
  gone : ∀ c, Ev.new c ∈ tr → (∀ h, s.hd h ≠ .own c) → tr.count (.rel c) = 1
  none : ∀ c, Ev.rel c ∈ tr → Ev.new c ∈ tr
  born : ∀ c, Ev.new c ∈ tr → (s.life.ctx c).fate ≠ .unborn
  fin : ∀ c, (s.life.ctx c).st = .finished → Ev.fin c ∈ tr
  exc : ∀ c, s.exc c = true → ∃ p q, tr = p ++ Ev.threw c :: q ∧ Ev.give c ∉ q
  stop : s.life.stop = true ↔ Ev.stopped ∈ tr
  uaf : ∀ c, Ev.uaf c ∈ tr → Ev.stopped ∈ tr

/-- Events that say nothing about ownership. (Concerns co.cpp:11-79, co_co.h:36-167.) -/
def Ev.quiet : Ev → Bool
  | .ret _ _ _ | .null _ | .uaf _ | .terminate _ _ | .det _ => true
  | _ => false

theorem exc_append {c : Nat} {tr es : List Ev} (h : ∃ p q, tr = p ++ Ev.threw c :: q ∧ Ev.give c ∉ q) (he : Ev.give c ∉ es) :
    ∃ p q, tr ++ es = p ++ Ev.threw c :: q ∧ Ev.give c ∉ q := by
  obtain ⟨p, q, rfl, hq⟩ := h
  exact ⟨p, q ++ es, by simp, by simp [hq, he]⟩

/-- Handles change hands, operations end, quiet events happen. -/
theorem hist_quiet {s : State} {tr es : List Ev} (H : Hist s tr) {hd' : Nat → Hd} {ops' : List Op} {dead' : Bool}
    (ho : OpsOk hd' ops') (hu : ∀ h g c, hd' h = .own c → hd' g = .own c → h = g)
    (hw : ∀ c, (∃ g, hd' g = .own c) ↔ ∃ g, s.hd g = .own c) (he : ∀ e ∈ es, e.quiet = true)
    (hf : ∀ c, Ev.uaf c ∈ es → Ev.stopped ∈ tr) :
    Hist { s with hd := hd', ops := ops', dead := dead' } (tr ++ es) := by
  obtain ⟨⟨i1, i2, i3, i4, i5, i6⟩, h1, h2, h3, h4, hfi, h5, h6, h7⟩ := H
  have hw1 : ∀ g c, hd' g = .own c → ∃ g, s.hd g = .own c := fun g c e => (hw c).1 ⟨g, e⟩
  have hw2 : ∀ g c, s.hd g = .own c → ∃ g, hd' g = .own c := fun g c e => (hw c).2 ⟨g, e⟩
  have hn : ∀ c, Ev.new c ∉ es := fun c h => by simpa [Ev.quiet] using he _ h
  have hr : ∀ c, Ev.rel c ∉ es := fun c h => by simpa [Ev.quiet] using he _ h
  have hg : ∀ c, Ev.give c ∉ es := fun c h => by simpa [Ev.quiet] using he _ h
  have hs : Ev.stopped ∉ es := fun h => by simpa [Ev.quiet] using he _ h
  have hz : ∀ c, es.count (Ev.rel c) = 0 := fun c => List.count_eq_zero.2 (hr c)
  refine ⟨⟨i1, hu, ?_, ?_, ?_, ho⟩, ?_, ?_, ?_, ?_, ?_, ?_, ?_, ?_⟩
  · grind
  · grind
  · grind
  · grind
  · intro c hc hh
    dsimp only at hh
    have : ∀ h, s.hd h ≠ .own c := by grind
    rw [List.count_append, hz, h2 c (by grind) this]
  · grind
  · grind
  · grind
  · exact fun c hc => exc_append (h5 c hc) (hg c)
  · grind
  · grind

theorem access_mem {s : State} {c : Nat} {e : Ev} : e ∈ s.access c ↔ e = .uaf c ∧ (s.life.ctx c).fate = .freed := by
  simp only [State.access]; split <;> simp_all

/-- A handle gives up its coroutine. -/
theorem hist_release {s : State} {tr : List Ev} (H : Hist s tr) {h c : Nat} (hc : s.hd h = .own c) {hd' : Nat → Hd} {dead' : Bool}
    (ho : OpsOk hd' s.ops) (hu : ∀ h g c, hd' h = .own c → hd' g = .own c → h = g)
    (hw : ∀ d, (∃ g, hd' g = .own d) ↔ d ≠ c ∧ ∃ g, s.hd g = .own d) :
    Hist { (s.release c).1 with hd := hd', dead := dead' } (tr ++ (s.release c).2) := by
  obtain ⟨⟨i1, i2, i3, i4, i5, i6⟩, h1, h2, h3, h4, hfi, h5, h6, h7⟩ := H
  have hw1 : ∀ g d, hd' g = .own d → d ≠ c ∧ ∃ g, s.hd g = .own d := fun g d e => (hw d).1 ⟨g, e⟩
  have hw2 : ∀ g d, s.hd g = .own d → d ≠ c → ∃ g, hd' g = .own d := fun g d e n => (hw d).2 ⟨n, g, e⟩
  have hsp := release_spec (s := s) i1 (i3 h c hc).1 (i3 h c hc).2
  dsimp only at hsp
  obtain ⟨r1, r2, r3, r4, r5, r6, r7, r8, r9⟩ := hsp
  have ha := @access_mem s c
  have hz : ∀ d, (s.access c).count (Ev.rel d) = 0 := fun d => List.count_eq_zero.2 (by grind)
  refine ⟨⟨r6, hu, ?_, ?_, ?_, by rw [r3]; exact ho⟩, ?_, ?_, ?_, ?_, ?_, ?_, ?_, ?_⟩
  · grind
  · grind
  · grind
  · intro g d hg
    dsimp only at hg
    have := (hw d).1 ⟨g, hg⟩
    grind
  · intro d hd hh
    dsimp only at hh
    rw [r9, List.count_append, List.count_cons, hz]
    by_cases hdc : d = c
    · subst hdc
      have := List.count_eq_zero.2 (h1 h d hc).2
      simp [this]
    · have : ∀ h, s.hd h ≠ .own d := by grind
      rw [h2 d (by grind) this]
      simp [Ne.symm hdc]
  · grind
  · grind
  · grind
  · intro d hd
    dsimp only at hd
    rw [r2] at hd
    exact exc_append (h5 d hd) (by grind)
  · grind
  · grind

theorem hist_ev {s : State} {tr es : List Ev} (H : Hist s tr) (he : ∀ e ∈ es, e.quiet = true)
    (hf : ∀ c, Ev.uaf c ∈ es → Ev.stopped ∈ tr) : Hist s (tr ++ es) :=
  hist_quiet (s := s) H H.inv.ops H.inv.uniq (fun _ => Iff.rfl) he hf

/-- An operation on a handle accesses its coroutine. -/
theorem hist_access {s : State} {tr : List Ev} (H : Hist s tr) {h c : Nat} (hc : s.hd h = .own c) : Hist s (tr ++ s.access c) := by
  refine hist_ev H ?_ ?_
  · intro e he; obtain ⟨rfl, _⟩ := access_mem.1 he; rfl
  · intro d hd
    obtain ⟨hd, hf⟩ := access_mem.1 hd
    exact H.stop.1 (H.inv.live h c hc hf)

/-- The exception is delivered. -/
theorem hist_give {s : State} {tr : List Ev} (H : Hist s tr) (c : Nat) :
    Hist { s with exc := upd s.exc c false } (tr ++ if s.exc c then [Ev.give c] else []) := by
  obtain ⟨⟨i1, i2, i3, i4, i5, i6⟩, h1, h2, h3, h4, hfi, h5, h6, h7⟩ := H
  refine ⟨⟨i1, i2, i3, i4, i5, i6⟩, ?_, ?_, ?_, ?_, ?_, ?_, ?_, ?_⟩ <;> try dsimp only
  · grind
  · intro d hd hh
    rw [List.count_append, h2 d (by grind) hh]
    split <;> simp
  · grind
  · grind
  · grind
  · intro d hd
    simp only [upd] at hd
    split at hd
    · simp at hd
    · exact exc_append (h5 d hd) (by grind)
  · grind
  · grind

theorem hist_leave {s : State} {tr : List Ev} (H : Hist s tr) {o : Op} {threw : Bool} (hc : s.hd o.h = .own o.c)
    (hx : o.kind.isWait = false → ∀ o' ∈ s.ops, o'.h ≠ o.h ∧ o'.kind ≠ .assign o.h)
    (hg : ∀ g, o.kind = .assign g → g ≠ o.h ∧ ∀ o' ∈ s.ops, o'.h ≠ g ∧ o'.kind ≠ .assign g) :
    Hist (s.leave o threw).1 (tr ++ (s.leave o threw).2) := by
  have hu := H.inv.uniq
  have e1 : ∀ {v : Hd} {dead' : Bool}, o.kind.isWait = false → (∀ d, v ≠ .own d) →
      Hist { (s.release o.c).1 with hd := upd s.hd o.h v, dead := dead' } (tr ++ (s.release o.c).2) := by
    intro v dead' hk hv
    refine hist_release H hc (H.inv.ops.upd ?_) ?_ ?_
    · intro g hne; simp only [upd] at hne; grind
    · simp only [upd]; grind
    · intro d
      simp only [upd]
      constructor
      · rintro ⟨g, hg⟩; grind
      · rintro ⟨hne, g, hg⟩; exact ⟨g, by grind⟩
  have dd : (s.release o.c).1.dead = s.dead :=
    (release_spec (s := s) H.inv.life (H.inv.own _ _ hc).1 (H.inv.own _ _ hc).2).2.2.2.1
  unfold State.leave
  split
  iterate 3 exact hist_ev H (by simp [Ev.quiet]) (by simp)
  · rename_i hk
    dsimp only
    rw [← List.append_assoc]
    refine hist_ev ?_ (by simp [Ev.quiet]) (by simp)
    exact e1 (v := .empty) (dead' := (s.release o.c).1.dead) (by simp [hk, Kind.isWait]) (by simp)
  · rename_i hk
    dsimp only
    split
    · dsimp only
      rw [← List.append_assoc]
      refine hist_ev ?_ (by simp [Ev.quiet]) (by simp)
      exact e1 (v := .empty) (dead' := true) (by simp [hk, Kind.isWait]) (by simp)
    · dsimp only
      rw [← List.append_assoc]
      refine hist_ev ?_ (by simp [Ev.quiet]) (by simp)
      exact e1 (v := .raw) (dead' := (s.release o.c).1.dead) (by simp [hk, Kind.isWait]) (by simp)
  · rename_i g hk
    have hg := hg g hk
    have hx := hx (by simp [hk, Kind.isWait])
    dsimp only
    split
    · dsimp only
      rw [← List.append_assoc]
      refine hist_ev ?_ (by simp [Ev.quiet]) (by simp)
      exact e1 (v := .empty) (dead' := true) (by simp [hk, Kind.isWait]) (by simp)
    · dsimp only
      rw [← List.append_assoc]
      refine hist_ev ?_ (by simp [Ev.quiet]) (by simp)
      refine hist_release (dead' := (s.release o.c).1.dead) H hc (H.inv.ops.upd ?_) ?_ ?_
      · intro g hne; simp only [upd] at hne; grind
      · simp only [upd]; grind
      · intro d
        simp only [upd]
        constructor
        · rintro ⟨g, hg⟩; grind
        · rintro ⟨hne, k, hk⟩
          by_cases hkg : k = g
          · exact ⟨o.h, by grind⟩
          · exact ⟨k, by grind⟩

theorem used_false {s : State} {h : Nat} (hu : s.used h = false) : ∀ o ∈ s.ops, o.h ≠ h ∧ o.kind ≠ .assign h := by
  intro o ho
  have := (List.any_eq_false.1 hu) o ho
  simpa using this

theorem held_false {s : State} {h : Nat} (hu : s.held h = false) :
    ∀ o ∈ s.ops, (o.h = h → o.kind.isWait = true) ∧ o.kind ≠ .assign h := by
  intro o ho
  have := (List.any_eq_false.1 hu) o ho
  simpa using this

theorem inOp_false {s : State} {w : Who} (hu : s.inOp w = false) : ∀ o ∈ s.ops, o.who ≠ w := by
  intro o ho
  have := (List.any_eq_false.1 hu) o ho
  simpa using this

theorem hist_life {s : State} {tr : List Ev} (H : Hist s tr) {a : Life.Act} {r : Life.State × List Life.Ev}
    (hr : Life.step s.life a = some r) (n1 : ∀ c sh, a ≠ .new c sh true) (n2 : ∀ c, a ≠ .drop c) {exc' : Nat → Bool} {es : List Ev}
    (he : es = if a = .stop then [Ev.stopped] else es.filter fun e => match e with | .threw _ | .fin _ => true | _ => false)
    (hfin : a = .finish → ∀ c, s.life.run = some c → Ev.fin c ∈ es)
    (hx : ∀ c, exc' c = true → s.exc c = true ∨ Ev.threw c ∈ es) :
    Hist { s with life := r.1, exc := exc' } (tr ++ es) := by
  obtain ⟨l, ls⟩ := r
  obtain ⟨hf1, hf2⟩ := life_frame H.inv.life hr n1 n2
  obtain ⟨⟨i1, i2, i3, i4, i5, i6⟩, h1, h2, h3, h4, hfi, h5, h6, h7⟩ := H
  have k1 : ∀ c, Ev.new c ∉ es := by intro c hc; rw [he] at hc; split at hc <;> simp at hc
  have k2 : ∀ c, Ev.rel c ∉ es := by intro c hc; rw [he] at hc; split at hc <;> simp at hc
  have k3 : ∀ c, Ev.give c ∉ es := by intro c hc; rw [he] at hc; split at hc <;> simp at hc
  have k4 : ∀ c, Ev.uaf c ∉ es := by intro c hc; rw [he] at hc; split at hc <;> simp at hc
  have k5 : Ev.stopped ∈ es ↔ a = .stop := by
    constructor
    · intro hc; rw [he] at hc; split at hc
      · assumption
      · simp at hc
    · intro hc; rw [he, if_pos hc]; simp
  refine ⟨⟨Life.inv_step i1 hr, i2, ?_, ?_, ?_, i6⟩, ?_, ?_, ?_, ?_, ?_, ?_, ?_, ?_⟩ <;> try dsimp only
  · grind
  · intro c hc hl; exact i4 c ((hf1 c).2.2.2.2.1 hc hl) (by grind)
  · intro h c hh hc
    have := i5 h c hh
    have := i3 h c hh
    cases hst : l.stop with
    | true => rfl
    | false => grind
  · grind
  · intro d hd hh
    rw [List.count_append, h2 d (by grind) hh, List.count_eq_zero.2 (k2 d)]
  · grind
  · grind
  · grind
  · intro d hd
    by_cases ht : Ev.threw d ∈ es
    · obtain ⟨p, q, rfl⟩ := List.append_of_mem ht
      exact ⟨tr ++ p, q, by simp, fun hq => k3 d (by simp [hq])⟩
    · exact exc_append (h5 d (by grind)) (k3 d)
  · rw [List.mem_append, k5, ← h6, hf2]
  · grind

theorem hist_step {s s' : State} {a : Act} {es tr : List Ev} (H : Hist s tr) (hs : step s a = some (s', es)) :
    Hist s' (tr ++ es) := by
  have hdead : ¬ s.dead = true := by
    intro hx
    simp [step, hx] at hs
  rw [step.eq_def, if_neg hdead] at hs
  cases a with
  | life a =>
    dsimp only at hs
    split at hs
    · simp at hs
    · simp at hs
    · simp at hs
    · rename_i n1 n2 n3
      cases hr : Life.step s.life a with
      | none => simp [hr] at hs
      | some r =>
        simp only [hr, Option.map_some, Option.some.injEq, Prod.mk.injEq] at hs
        obtain ⟨rfl, rfl⟩ := hs
        exact hist_life (exc' := s.exc) H hr (fun c sh h => n1 c sh h) (fun c h => n2 c h) (by split <;> simp) (fun h => absurd h n3) (fun c h => .inl h)
  | finish throws =>
    dsimp only at hs
    split at hs
    · simp at hs
    · rename_i c hrun
      cases hr : Life.step s.life .finish with
      | none => simp [hr] at hs
      | some r =>
        simp only [hr, Option.map_some, Option.some.injEq, Prod.mk.injEq] at hs
        obtain ⟨rfl, rfl⟩ := hs
        refine hist_life H hr (by simp) (by simp) (by cases throws <;> simp) (by simp [hrun]) ?_
        intro d hd
        simp only [upd] at hd
        cases throws <;> grind
  | create h c sh =>
    dsimp only at hs
    split at hs
    · rename_i hraw
      cases hr : Life.step s.life (.new c sh true) with
      | none => simp [hr] at hs
      | some r =>
        simp only [hr, Option.map_some, Option.some.injEq, Prod.mk.injEq] at hs
        obtain ⟨rfl, rfl⟩ := hs
        obtain ⟨⟨i1, i2, i3, i4, i5, i6⟩, h1, h2, h3, h4, hfi, h5, h6, h7⟩ := H
        have hi := Life.inv_step i1 hr
        obtain ⟨l, ls⟩ := r
        crunch hr
        dsimp only at hi
        refine ⟨⟨hi, ?_, ?_, ?_, ?_, i6.upd ?_⟩, ?_, ?_, ?_, ?_, ?_, ?_, ?_, ?_⟩ <;> (try dsimp only)
        · simp only [upd]; grind
        · simp only [upd]; grind
        · intro d h8 h9
          by_cases hdc : d = c
          · exact ⟨h, by simp [upd, hdc]⟩
          · obtain ⟨g, hg⟩ := i4 d (by grind) (by grind)
            exact ⟨g, by simp only [upd]; grind⟩
        · simp only [upd]; grind
        · intro g hg o ho
          simp only [upd] at hg
          have := i6.tgt o ho
          have := i6.src o ho
          grind
        · simp only [upd]; grind
        · intro d hd hh
          have : d ≠ c := by rintro rfl; exact hh h (by simp [upd])
          rw [List.count_append, h2 d (by grind) (fun g hg => hh g (by simp only [upd]; grind))]
          simp
        · grind
        · grind
        · grind
        · intro d hd
          exact exc_append (h5 d hd) (by simp)
        · simp [Life.State.put, h6]
        · grind
    · simp at hs
  | move h g =>
    dsimp only at hs
    split at hs
    · rename_i hc
      obtain ⟨c1, c2, c3⟩ := hc
      have hus := used_false c3
      simp only [Option.some.injEq, Prod.mk.injEq] at hs
      obtain ⟨rfl, rfl⟩ := hs
      have := hist_quiet (dead' := s.dead) (es := []) H (hd' := upd (upd s.hd h (s.hd g)) g .empty) (ops' := s.ops) (H.inv.ops.upd ?_) ?_ ?_
        (by simp) (by simp)
      · exact this
      · intro k hk o ho
        simp only [upd] at hk
        have := H.inv.ops.tgt o ho
        have := H.inv.ops.src o ho
        grind
      · have := H.inv.uniq
        simp only [upd]; grind
      · intro d
        simp only [upd]
        constructor
        · rintro ⟨k, hk⟩; grind
        · rintro ⟨k, hk⟩
          by_cases hkg : k = g
          · exact ⟨h, by grind⟩
          · exact ⟨k, by grind⟩
    · simp at hs
  | detach h =>
    dsimp only at hs
    split at hs
    · simp at hs
    · rename_i hnu
      have hus := used_false (Bool.eq_false_iff.2 hnu)
      split at hs
      · simp at hs
      · simp only [Option.some.injEq, Prod.mk.injEq] at hs
        obtain ⟨rfl, rfl⟩ := hs
        simpa using H
      · rename_i c hc
        simp only [Option.some.injEq, Prod.mk.injEq] at hs
        obtain ⟨rfl, rfl⟩ := hs
        rw [← List.singleton_append, ← List.append_assoc]
        refine hist_release (dead' := (s.release c).1.dead) (hist_ev H (es := [.det c]) (by simp [Ev.quiet]) (by simp)) hc
          (H.inv.ops.upd ?_) ?_ ?_
        · intro g hne; simp only [upd] at hne; grind
        · have := H.inv.uniq
          simp only [upd]; grind
        · have := H.inv.uniq
          intro d
          simp only [upd]
          constructor
          · rintro ⟨g, hg⟩; grind
          · rintro ⟨hne, g, hg⟩; exact ⟨g, by grind⟩
  | query h k =>
    dsimp only at hs
    split at hs
    · simp at hs
    · split at hs
      · simp at hs
      all_goals simp only [Option.some.injEq, Prod.mk.injEq] at hs
      all_goals obtain ⟨rfl, rfl⟩ := hs
      · simpa using H
      · exact hist_quiet H H.inv.ops H.inv.uniq (fun _ => Iff.rfl) (by simp [Ev.quiet]) (by simp)
      · exact hist_access H ‹_›
  | start who h k =>
    dsimp only at hs
    split at hs
    · rename_i hmay
      simp only [State.may, Bool.and_eq_true, Bool.not_eq_true'] at hmay
      obtain ⟨⟨m1, m2⟩, m3⟩ := hmay
      have hin := inOp_false m1
      split at hs
      · simp at hs
      · rename_i he
        simp only [Option.some.injEq] at hs
        have e1 : s' = (s.startEmpty who h k).1 := by rw [hs]
        have e2 : es = (s.startEmpty who h k).2 := by rw [hs]
        subst e1 e2
        cases k with
        | wait => exact hist_ev H (by simp [State.startEmpty, Ev.quiet]) (by simp [State.startEmpty])
        | join => exact hist_ev H (by simp [State.startEmpty, Ev.quiet]) (by simp [State.startEmpty])
        | waitVal =>
          cases who
          · exact hist_quiet H H.inv.ops H.inv.uniq (fun _ => Iff.rfl) (by simp [State.startEmpty, Ev.quiet]) (by simp [State.startEmpty])
          · exact hist_ev H (by simp [State.startEmpty, Ev.quiet]) (by simp [State.startEmpty])
        | waitFor =>
          cases who
          · exact hist_quiet H H.inv.ops H.inv.uniq (fun _ => Iff.rfl) (by simp [State.startEmpty, Ev.quiet]) (by simp [State.startEmpty])
          · exact hist_ev H (by simp [State.startEmpty, Ev.quiet]) (by simp [State.startEmpty])
        | dtor =>
          simp only [Kind.isWait, Bool.false_eq_true, if_false, Bool.not_eq_true'] at m2
          have hus := used_false m2
          refine hist_quiet (dead' := s.dead) (ops' := s.ops) H (H.inv.ops.upd ?_) ?_ ?_ (by simp [State.startEmpty, Ev.quiet])
            (by simp [State.startEmpty])
          · intro g hne; simp only [upd] at hne; grind
          · have := H.inv.uniq
            simp only [upd]; grind
          · intro d
            simp only [upd]
            constructor
            · rintro ⟨g, hg⟩; grind
            · rintro ⟨g, hg⟩; exact ⟨g, by grind⟩
        | assign g =>
          simp only [Kind.isWait, Bool.false_eq_true, if_false, Bool.not_eq_true', Bool.and_eq_true, decide_eq_true_eq] at m2 m3
          have hus := used_false m2
          have hug := used_false m3.1
          simp only [State.startEmpty]
          split
          · exact hist_ev H (by simp [Ev.quiet]) (by simp)
          · refine hist_quiet (dead' := s.dead) (ops' := s.ops) H (H.inv.ops.upd ?_) ?_ ?_ (by simp [Ev.quiet]) (by simp)
            · intro g hne; simp only [upd] at hne; grind
            · have := H.inv.uniq
              simp only [upd]; grind
            · intro d
              simp only [upd]
              constructor
              · rintro ⟨g, hg⟩; grind
              · rintro ⟨k, hk⟩
                by_cases hkg : k = g
                · exact ⟨h, by grind⟩
                · exact ⟨k, by grind⟩
      · rename_i c hc
        simp only [Option.some.injEq] at hs
        have e1 : s' = (s.startOwn who h c k).1 := by rw [hs]
        have e2 : es = (s.startOwn who h c k).2 := by rw [hs]
        subst e1 e2
        have hus : k.isWait = false → ∀ o ∈ s.ops, o.h ≠ h ∧ o.kind ≠ .assign h := by
          intro hk
          simp only [hk, Bool.false_eq_true, if_false, Bool.not_eq_true'] at m2
          exact used_false m2
        have hhe : ∀ o ∈ s.ops, (o.h = h → o.kind.isWait = true) ∧ o.kind ≠ .assign h := by
          cases hk : k.isWait with
          | true =>
            simp only [hk, if_true, Bool.not_eq_true'] at m2
            exact held_false m2
          | false =>
            have := hus hk
            grind
        have hug : ∀ g, k = .assign g → s.hd g ≠ .raw ∧ ∀ o ∈ s.ops, o.h ≠ g ∧ o.kind ≠ .assign g := by
          rintro g rfl
          simp only [Bool.and_eq_true, Bool.not_eq_true', decide_eq_true_eq] at m3
          exact ⟨m3.2, used_false m3.1⟩
        unfold State.startOwn
        split
        · exact hist_ev H (by simp [Ev.quiet]) (by simp)
        · rename_i hne
          split
          · refine hist_leave H hc hus ?_
            intro g hg
            dsimp only at hg ⊢
            exact ⟨by grind, (hug g hg).2⟩
          · have ha := @access_mem s c
            refine hist_quiet (hd' := s.hd) (dead' := s.dead) H ?_ H.inv.uniq (fun _ => Iff.rfl) ?_ ?_
            · obtain ⟨o1, o2, o3, o4⟩ := H.inv.ops
              constructor <;> grind
            · intro e he
              rw [(ha.1 he).1]; rfl
            · intro d hd
              exact H.stop.1 (H.inv.live h c hc (ha.1 hd).2)
    · simp at hs
  | done who timeout =>
    dsimp only at hs
    split at hs
    · simp at hs
    · rename_i o ho
      have hmem := List.mem_of_find?_eq_some ho
      have hc := H.inv.ops.tgt o hmem
      have ha := @access_mem s o.c
      have H1 : Hist { s with ops := s.ops.filter (· != o) } (tr ++ s.access o.c) :=
        hist_quiet (hd' := s.hd) (dead' := s.dead) H (H.inv.ops.filter _) H.inv.uniq (fun _ => Iff.rfl)
          (fun e he => by rw [(ha.1 he).1]; rfl) (fun d hd => H.stop.1 (H.inv.live _ _ hc (ha.1 hd).2))
      simp only [State.endOp] at hs
      split at hs
      · simp only [Option.some.injEq, Prod.mk.injEq] at hs
        obtain ⟨rfl, rfl⟩ := hs
        have H2 := hist_give H1 o.c
        dsimp only at H2
        have H3 := hist_leave (threw := s.exc o.c) H2 (o := o) hc ?_ ?_
        · simpa only [List.append_assoc] using H3
        · obtain ⟨o1, o2, o3, o4⟩ := H.inv.ops
          intro hk o' ho'
          simp only [List.mem_filter, bne_iff_ne] at ho'
          refine ⟨fun h => ?_, fun h => ?_⟩
          · have := o2 o' ho'.1 o hmem h
            grind
          · exact ((o3 o' ho'.1 _ h).2 o hmem).1 rfl
        · obtain ⟨o1, o2, o3, o4⟩ := H.inv.ops
          intro g hk
          have := o3 o hmem g hk
          refine ⟨fun h => (this.2 o hmem).1 h.symm, ?_⟩
          intro o' ho'
          simp only [List.mem_filter, bne_iff_ne] at ho'
          have := this.2 o' ho'.1
          grind
      · split at hs
        · simp only [Option.some.injEq, Prod.mk.injEq] at hs
          obtain ⟨rfl, rfl⟩ := hs
          rw [← List.append_assoc]
          exact hist_ev H1 (by simp [Ev.quiet]) (by simp)
        · simp at hs

theorem hist_runs {as : List Act} {s : State} {tr : List Ev} (h : runs step State.init as = some (s, tr)) : Hist s tr := by
  have := runs_hist Hist (fun s a s' es tr h hs => hist_step h hs) as State.init s tr []
    (by refine ⟨inv_init, ?_, ?_, ?_, ?_, ?_, ?_, ?_, ?_⟩ <;> simp [State.init, Life.State.init]) h
  simpa using this

/-! ## C88: who owns a coroutine -/

/-- **C88**: at any time at most one handle owns a coroutine. -/
theorem C88_one_owner {as : List Act} {s : State} {tr : List Ev} (h : runs step State.init as = some (s, tr)) {g k c : Nat}
    (hg : s.hd g = .own c) (hk : s.hd k = .own c) : g = k :=
  (hist_runs h).inv.uniq g k c hg hk

/-- **C88**: whatever handles are moved, assigned, joined, detached and destroyed, in any number of threads, the right to keep a coroutine
is given up at most once, only for coroutines that have been created, and exactly when no handle owns it any more. -/
theorem C88_released_once {as : List Act} {s : State} {tr : List Ev} (h : runs step State.init as = some (s, tr)) (c : Nat) :
    tr.count (.rel c) ≤ 1 ∧ (Ev.rel c ∈ tr → Ev.new c ∈ tr) ∧ (Ev.new c ∈ tr → (Ev.rel c ∈ tr ↔ ∀ g, s.hd g ≠ .own c)) := by
  have H := hist_runs h
  have key : Ev.new c ∈ tr → (Ev.rel c ∈ tr ↔ ∀ g, s.hd g ≠ .own c) := by
    intro hn
    constructor
    · exact fun hr g hg => (H.held g c hg).2 hr
    · intro hh
      have := H.gone c hn hh
      exact List.count_pos_iff.1 (by omega)
  refine ⟨?_, H.none c, key⟩
  by_cases hr : Ev.rel c ∈ tr
  · exact Nat.le_of_eq (H.gone c (H.none c hr) ((key (H.none c hr)).1 hr))
  · rw [List.count_eq_zero.2 hr]; omega

/-- **C88, as long as the env is not stopped**: the coroutine object of a handle is there, so no operation on a handle accesses a destroyed
one. What is missing: `C88_stop_uaf`. -/
theorem C88_owner_keeps_partial {as : List Act} {s : State} {tr : List Ev} (h : runs step State.init as = some (s, tr))
    (hstop : Ev.stopped ∉ tr) :
    (∀ g c, s.hd g = .own c → (s.life.ctx c).fate = .alive) ∧ ∀ c, Ev.uaf c ∉ tr := by
  have H := hist_runs h
  refine ⟨?_, fun c hc => hstop (H.uaf c hc)⟩
  intro g c hg
  have h1 := (H.inv.own g c hg).1
  have h2 := H.inv.live g c hg
  have h3 := H.stop
  cases hf : (s.life.ctx c).fate <;> grind

/-! ## C89: the end of a handle -/

theorem split_unique {P : Ev → Bool} {A B p q : List Ev} {e e' : Ev} (hA : ∀ x ∈ A, P x = false) (hB : ∀ x ∈ B, P x = false)
    (he : P e' = true) (h : A ++ e :: B = p ++ e' :: q) : p = A ∧ e' = e ∧ q = B := by
  rcases List.append_eq_append_iff.1 h with ⟨m, h1, h2⟩ | ⟨m, h1, h2⟩
  · cases m with
    | nil => simp at h1 h2; exact ⟨h1, h2.1.symm, h2.2.symm⟩
    | cons x m =>
      simp only [List.cons_append, List.cons.injEq] at h2
      have := hB e' (by rw [h2.2]; simp)
      simp [he] at this
  · cases m with
    | nil => simp at h1 h2; exact ⟨h1.symm, h2.1, h2.2⟩
    | cons x m =>
      simp only [List.cons_append, List.cons.injEq] at h2
      have := hA e' (by rw [h1, h2.1]; simp)
      simp [he] at this

theorem leave_shape {s : State} (hI : Inv s) {o : Op} (hc : s.hd o.h = .own o.c) (threw : Bool) :
    (s.leave o threw).2 = [.ret o.who o.h threw] ∨
    (s.leave o threw).2 = .rel o.c :: (s.access o.c ++ [.ret o.who o.h threw]) ∨
    (threw = true ∧ (s.leave o threw).2 = .rel o.c :: (s.access o.c ++ [.terminate o.who o.c])) := by
  have r9 := (release_spec (s := s) hI.life (hI.own _ _ hc).1 (hI.own _ _ hc).2).2.2.2.2.2.2.2.2
  unfold State.leave
  split
  iterate 3 exact .inl rfl
  · exact .inr (.inl (by simp [r9]))
  · cases threw
    · exact .inr (.inl (by simp [r9]))
    · exact .inr (.inr ⟨rfl, by simp [r9]⟩)
  · cases threw
    · exact .inr (.inl (by simp [r9]))
    · exact .inr (.inr ⟨rfl, by simp [r9]⟩)

/-- The events that end the ownership of a coroutine, and the end of the program. (Concerns co.cpp:11-79, co_co.h:36-167.) -/
def Ev.final : Ev → Bool
  | .rel _ | .terminate _ _ => true
  | _ => false

/-- Which steps have such events, and what else they do. -/
theorem final_step {s s' : State} {a : Act} {es : List Ev} (hI : Inv s) (hs : step s a = some (s', es)) :
    (∀ e ∈ es, e.final = false) ∨
    (∃ h c, a = .detach h ∧ s.hd h = .own c ∧ es = .det c :: .rel c :: s.access c) ∨
    (∃ h c k, a = .start (.co c) h k ∧ s.hd h = .own c ∧ es = (s.leave ⟨.co c, h, c, k⟩ true).2) ∨
    (∃ o b, a = .done o.who b ∧ o ∈ s.ops ∧ (s.life.ctx o.c).st = .finished ∧ ∃ u : State, u.hd = s.hd ∧ Inv u ∧ u.life = s.life ∧
      es = s.access o.c ++ (if s.exc o.c then [.give o.c] else []) ++ (u.leave o (s.exc o.c)).2) := by
  have ha : ∀ c, ∀ e ∈ s.access c, e.final = false := by
    intro c e he; rw [(access_mem.1 he).1]; rfl
  have hdead : ¬ s.dead = true := by
    intro hx
    simp [step, hx] at hs
  rw [step.eq_def, if_neg hdead] at hs
  cases a with
  | life a =>
    left
    dsimp only at hs
    split at hs
    · simp at hs
    · simp at hs
    · simp at hs
    · cases hr : Life.step s.life a with
      | none => simp [hr] at hs
      | some r =>
        simp only [hr, Option.map_some, Option.some.injEq, Prod.mk.injEq] at hs
        obtain ⟨rfl, rfl⟩ := hs
        split <;> simp [Ev.final]
  | finish throws =>
    left
    dsimp only at hs
    split at hs
    · simp at hs
    · cases hr : Life.step s.life .finish with
      | none => simp [hr] at hs
      | some r =>
        simp only [hr, Option.map_some, Option.some.injEq, Prod.mk.injEq] at hs
        obtain ⟨rfl, rfl⟩ := hs
        split <;> simp [Ev.final]
  | create h c sh =>
    left
    dsimp only at hs
    split at hs
    · cases hr : Life.step s.life (.new c sh true) with
      | none => simp [hr] at hs
      | some r =>
        simp only [hr, Option.map_some, Option.some.injEq, Prod.mk.injEq] at hs
        obtain ⟨rfl, rfl⟩ := hs
        simp [Ev.final]
    · simp at hs
  | move h g =>
    left
    dsimp only at hs
    split at hs
    · simp only [Option.some.injEq, Prod.mk.injEq] at hs
      obtain ⟨rfl, rfl⟩ := hs
      simp
    · simp at hs
  | detach h =>
    dsimp only at hs
    split at hs
    · simp at hs
    · split at hs
      · simp at hs
      · simp only [Option.some.injEq, Prod.mk.injEq] at hs
        obtain ⟨rfl, rfl⟩ := hs
        simp
      · rename_i c hc
        simp only [Option.some.injEq, Prod.mk.injEq] at hs
        have r9 := (release_spec (s := s) hI.life (hI.own _ _ hc).1 (hI.own _ _ hc).2).2.2.2.2.2.2.2.2
        rw [r9] at hs
        exact .inr (.inl ⟨h, c, rfl, hc, hs.2.symm⟩)
  | query h k =>
    left
    dsimp only at hs
    split at hs
    · simp at hs
    · split at hs
      · simp at hs
      all_goals simp only [Option.some.injEq, Prod.mk.injEq] at hs
      all_goals obtain ⟨rfl, rfl⟩ := hs
      · simp
      · simp [Ev.final]
      · exact ha _
  | start who h k =>
    dsimp only at hs
    split at hs
    · split at hs
      · simp at hs
      · left
        simp only [Option.some.injEq] at hs
        have e2 : es = (s.startEmpty who h k).2 := by rw [hs]
        rw [e2]
        cases k <;> simp only [State.startEmpty]
        case assign => split <;> simp [Ev.final]
        case waitVal => cases who <;> simp [Ev.final]
        case waitFor => cases who <;> simp [Ev.final]
        all_goals simp [Ev.final]
      · rename_i c hc
        simp only [Option.some.injEq] at hs
        have e2 : es = (s.startOwn who h c k).2 := by rw [hs]
        rw [e2]
        unfold State.startOwn
        split
        · left; simp [Ev.final]
        · split
          · subst who
            exact .inr (.inr (.inl ⟨h, c, k, rfl, hc, rfl⟩))
          · exact .inl (ha c)
    · simp at hs
  | done who timeout =>
    dsimp only at hs
    split at hs
    · simp at hs
    · rename_i o ho
      have hmem := List.mem_of_find?_eq_some ho
      have hw : o.who = who := by simpa using List.find?_some ho
      simp only [State.endOp] at hs
      split at hs
      · rename_i hfin
        simp only [Option.some.injEq, Prod.mk.injEq] at hs
        obtain ⟨-, rfl⟩ := hs
        refine .inr (.inr (.inr ⟨o, timeout, by rw [hw], hmem, hfin, _, ?_, ?_, ?_, rfl⟩))
        · rfl
        · exact ⟨hI.life, hI.uniq, hI.own, hI.lock, hI.live, hI.ops.filter _⟩
        · rfl
      · split at hs
        · simp only [Option.some.injEq, Prod.mk.injEq] at hs
          obtain ⟨rfl, rfl⟩ := hs
          left
          intro e he
          rcases List.mem_append.1 he with he | he
          · exact ha _ e he
          · simp at he; subst he; rfl
        · simp at hs

theorem access_final {s : State} {c : Nat} : ∀ e ∈ s.access c, e.final = false := by
  intro e he; rw [(access_mem.1 he).1]; rfl

/-- **C89**: a handle gives up its coroutine only by `detach()`, or when the function of the coroutine has ended. So destroying, assigning
and joining a handle wait for the coroutine. The exception is a handle that its own coroutine joins, assigns or destroys: "can't wait
self" is thrown. -/
theorem C89_waits {as : List Act} {s : State} {pre post : List Ev} {c : Nat}
    (h : runs step State.init as = some (s, pre ++ Ev.rel c :: post)) :
    Ev.det c ∈ pre ∨ Ev.fin c ∈ pre ∨ (∃ g, Ev.ret (.co c) g true ∈ post) ∨ Ev.terminate (.co c) c ∈ post := by
  obtain ⟨as1, a, as2, s1, s2, p1, p2, q1, q2, rfl, h1, h2, h3, rfl, rfl⟩ := runs_split as _ _ _ _ _ h
  have H := hist_runs h1
  have hr : ∀ {d : Nat}, ∀ e ∈ s1.access d, (match e with | Ev.rel _ => true | _ => false) = false := by
    intro d e he; rw [(access_mem.1 he).1]
  rcases final_step H.inv h2 with hn | ⟨g, d, -, hg, he⟩ | ⟨g, d, k, -, hg, he⟩ | ⟨o, b, -, ho, hf, u, hu1, hu2, hu3, he⟩
  · have := hn (.rel c) (by simp)
    simp [Ev.final] at this
  · obtain ⟨e1, e2, e3⟩ := split_unique (P := fun e => match e with | .rel _ => true | _ => false) (A := [.det d]) (e := .rel d)
      (B := s1.access d) (by simp) hr rfl he.symm
    simp only [Ev.rel.injEq] at e2
    left; simp [e1, e2]
  · rcases leave_shape H.inv (o := ⟨.co d, g, d, k⟩) hg true with hl | hl | ⟨-, hl⟩ <;> rw [hl] at he <;>
      dsimp only at he
    · have : Ev.rel c ∈ [Ev.ret (.co d) g true] := by rw [← he]; simp
      simp at this
    · obtain ⟨e1, e2, e3⟩ := split_unique (P := fun e => match e with | .rel _ => true | _ => false) (A := []) (e := .rel d) (e' := .rel c) (p := p2) (q := q1)
        (B := s1.access d ++ [.ret (.co d) g true]) (by simp) (by
          intro x hx
          rcases List.mem_append.1 hx with hx | hx
          · exact hr x hx
          · simp at hx; subst hx; rfl) rfl (by rw [List.nil_append]; exact he.symm)
      simp only [Ev.rel.injEq] at e2
      right; right; left
      exact ⟨g, by simp [e3, e2]⟩
    · obtain ⟨e1, e2, e3⟩ := split_unique (P := fun e => match e with | .rel _ => true | _ => false) (A := []) (e := .rel d) (e' := .rel c) (p := p2) (q := q1)
        (B := s1.access d ++ [.terminate (.co d) d]) (by simp) (by
          intro x hx
          rcases List.mem_append.1 hx with hx | hx
          · exact hr x hx
          · simp at hx; subst hx; rfl) rfl (by rw [List.nil_append]; exact he.symm)
      simp only [Ev.rel.injEq] at e2
      right; right; right
      simp [e3, e2]
  · have hm : Ev.rel c ∈ (u.leave o (s1.exc o.c)).2 := by
      have : Ev.rel c ∈ p2 ++ Ev.rel c :: q1 := by simp
      rw [he] at this
      rcases List.mem_append.1 this with hx | hx
      · rcases List.mem_append.1 hx with hx | hx
        · simpa using (access_mem.1 hx).1
        · split at hx <;> simp at hx
      · exact hx
    have hoc : c = o.c := by
      have hu := @access_mem u o.c
      rcases leave_shape hu2 (by rw [hu1]; exact H.inv.ops.tgt o ho) (s1.exc o.c) with hl | hl | ⟨-, hl⟩ <;> rw [hl] at hm <;> grind
    subst hoc
    right; left
    simp [H.fin _ hf]

/-- **C89, the operations return only when they are done**: an operation other than `wait_for` that has begun to wait returns only
when the function of the coroutine has ended; and if it is the destructor, an assignment or `join()`, the handle has let go of the
coroutine then. -/
theorem C89_returns {as : List Act} {s s' : State} {tr es : List Ev} (h : runs step State.init as = some (s, tr)) {o : Op}
    (ho : o ∈ s.ops) (hk : o.kind ≠ .waitFor) {timeout : Bool} (hs : step s (.done o.who timeout) = some (s', es)) :
    Ev.fin o.c ∈ tr ∧ (o.kind.isWait = false → Ev.rel o.c ∈ es ∧ s'.hd o.h ≠ .own o.c) := by
  have H := hist_runs h
  have hdead : ¬ s.dead = true := by intro hd; simp [step, hd] at hs
  have hf : s.ops.find? (fun p => p.who == o.who) = some o := by
    cases hq : s.ops.find? (fun p => p.who == o.who) with
    | none => have := List.find?_eq_none.mp hq o ho; simp at this
    | some p =>
      have h1 := List.mem_of_find?_eq_some hq
      have h2 := List.find?_some hq
      rw [H.inv.ops.who p h1 o ho (by simpa using h2)]
  rw [step.eq_def, if_neg hdead] at hs
  dsimp only at hs
  rw [hf] at hs
  dsimp only [State.endOp] at hs
  split at hs
  · rename_i hfin
    refine ⟨H.fin _ hfin, fun hw => ?_⟩
    have ht := H.inv.ops.tgt o ho
    have hsrc := H.inv.ops.src o ho
    have huq := H.inv.uniq
    have r9 := (release_spec (s := { s with ops := s.ops.filter (· != o), exc := upd s.exc o.c false }) H.inv.life
      (H.inv.own _ _ ht).1 (H.inv.own _ _ ht).2).2.2.2.2.2.2.2.2
    simp only [Option.some.injEq, Prod.mk.injEq] at hs
    obtain ⟨rfl, rfl⟩ := hs
    cases hkd : o.kind with
    | wait => simp [hkd, Kind.isWait] at hw
    | waitVal => simp [hkd, Kind.isWait] at hw
    | waitFor => exact absurd hkd hk
    | join => simp [State.leave, hkd, r9, upd_same]
    | dtor => cases s.exc o.c <;> simp [State.leave, hkd, r9, upd_same]
    | assign g =>
      have h1 := hsrc g hkd
      have h2 : o.h ≠ g := (h1.2 o ho).1
      have h3 : s.hd g ≠ .own o.c := fun hq => h2 (huq _ _ _ ht hq)
      cases s.exc o.c <;> simp [State.leave, hkd, r9, upd_same, upd_other, h2, h3]
  · split at hs
    · rename_i hc; exact absurd hc.2 hk
    · cases hs

/-- After `std::terminate` nothing happens. -/
theorem terminate_dead {s s' : State} {a : Act} {es : List Ev} (hs : step s a = some (s', es)) {w : Who} {c : Nat}
    (hm : Ev.terminate w c ∈ es) (hI : Inv s) : s'.dead = true := by
  have key : ∀ (u : State) (o : Op) (b : Bool), Inv u → u.hd o.h = .own o.c → Ev.terminate w c ∈ (u.leave o b).2 →
      (u.leave o b).1.dead = true := by
    intro u o b hu hc
    have r9 := (release_spec (s := u) hu.life (hu.own _ _ hc).1 (hu.own _ _ hc).2).2.2.2.2.2.2.2.2
    have ha := @access_mem u o.c
    unfold State.leave
    split
    iterate 3 simp
    · simp [r9, ha]
    · cases b <;> simp [r9, ha]
    · cases b <;> simp [r9, ha]
  have hdead : ¬ s.dead = true := by
    intro hx
    simp [step, hx] at hs
  have hs0 := hs
  rw [step.eq_def, if_neg hdead] at hs
  rcases final_step hI hs0 with hn | ⟨g, d, -, hg, he⟩ | ⟨g, d, k, rfl, hg, he⟩ | ⟨o, b, rfl, ho, hf, u, hu1, hu2, hu3, he⟩
  · have := hn _ hm
    simp [Ev.final] at this
  · have ha := @access_mem s d
    rw [he] at hm
    grind
  · dsimp only at hs
    split at hs
    · rw [hg] at hs
      dsimp only at hs
      simp only [Option.some.injEq] at hs
      have e1 : s' = (s.startOwn (.co d) g d k).1 := by rw [hs]
      rw [e1]
      have e2 : es = (s.startOwn (.co d) g d k).2 := by rw [hs]
      unfold State.startOwn at e2 ⊢
      split
      · rw [if_pos ‹_›] at e2
        simp [e2] at hm
      · rw [if_neg ‹_›] at e2
        simp only [if_true] at e2 ⊢
        exact key s _ _ hI hg (by rw [← e2]; exact hm)
    · simp at hs
  · dsimp only at hs
    split at hs
    · simp at hs
    · rename_i o' ho'
      have hmem := List.mem_of_find?_eq_some ho'
      have hw : o'.who = o.who := by simpa using List.find?_some ho'
      have := hI.ops.who o' hmem o ho hw
      subst this
      simp only [State.endOp, if_pos hf, Option.some.injEq, Prod.mk.injEq] at hs
      obtain ⟨rfl, e2⟩ := hs
      refine key _ _ _ ?_ (hI.ops.tgt o' ho) ?_
      · exact ⟨hI.life, hI.uniq, hI.own, hI.lock, hI.live, hI.ops.filter _⟩
      · rw [← e2] at hm
        have ha := @access_mem s o'.c
        rcases List.mem_append.1 hm with hx | hx
        · rcases List.mem_append.1 hx with hx | hx
          · simpa using (ha.1 hx).1
          · split at hx <;> simp at hx
        · exact hx

/-- **C89, the end of a handle brings the program down only for two reasons**: it happens inside the handle's own coroutine, or the function of
the coroutine ended with an exception that nobody had received: the only delivery is the one to the destructor or to `operator=`. What is
missing: `C89_undelivered_terminates`, `C89_self_terminates`. -/
theorem C89_terminates_only_partial {as : List Act} {s : State} {pre post : List Ev} {w : Who} {c : Nat}
    (h : runs step State.init as = some (s, pre ++ Ev.terminate w c :: post)) :
    post = [] ∧ (w = .co c ∨ ∃ p q, pre = p ++ Ev.threw c :: q ∧ q.count (.give c) = 1) := by
  obtain ⟨as1, a, as2, s1, s2, p1, p2, q1, q2, rfl, h1, h2, h3, rfl, rfl⟩ := runs_split as _ _ _ _ _ h
  have H := hist_runs h1
  have hq2 : q2 = [] := by
    have hd := terminate_dead h2 (w := w) (c := c) (by simp) H.inv
    cases as2 with
    | nil => simp [runs] at h3; exact h3.2
    | cons b bs =>
      obtain ⟨u, e1, e2, k1, k2, rfl⟩ := runs_cons h3
      simp [step, hd] at k1
  have hr : ∀ {u : State} {d : Nat}, ∀ e ∈ u.access d, (match e with | Ev.terminate _ _ => true | _ => false) = false := by
    intro u d e he; rw [(access_mem.1 he).1]
  rcases final_step H.inv h2 with hn | ⟨g, d, -, hg, he⟩ | ⟨g, d, k, -, hg, he⟩ | ⟨o, b, -, ho, hf, u, hu1, hu2, hu3, he⟩
  · have := hn (.terminate w c) (by simp)
    simp [Ev.final] at this
  · have : Ev.terminate w c ∈ p2 ++ Ev.terminate w c :: q1 := by simp
    rw [he] at this
    have ha := @access_mem s1 d
    grind
  · have hm : Ev.terminate w c ∈ p2 ++ Ev.terminate w c :: q1 := by simp
    rcases leave_shape H.inv (o := ⟨.co d, g, d, k⟩) hg true with hl | hl | ⟨-, hl⟩ <;> rw [hl] at he
    · rw [he] at hm; simp at hm
    · rw [he] at hm
      have ha := @access_mem s1 d
      grind
    · obtain ⟨e1, e2, e3⟩ := split_unique (P := fun e => match e with | .terminate _ _ => true | _ => false)
        (A := .rel d :: s1.access d) (e := .terminate (.co d) d) (B := []) (by
          intro x hx
          rcases List.mem_cons.1 hx with rfl | hx
          · rfl
          · exact hr x hx) (by simp) rfl (by rw [he]; simp)
      simp only [Ev.terminate.injEq] at e2
      exact ⟨by simp [e3, hq2], .inl (by rw [e2.1, e2.2])⟩
  · have hm : Ev.terminate w c ∈ p2 ++ Ev.terminate w c :: q1 := by simp
    have ha := @access_mem s1 o.c
    have hau := @access_mem u o.c
    rcases leave_shape hu2 (by rw [hu1]; exact H.inv.ops.tgt o ho) (s1.exc o.c) with hl | hl | ⟨hx, hl⟩ <;> rw [hl] at he
    · rw [he] at hm; grind
    · rw [he] at hm; grind
    · rw [hx] at he
      simp only [if_true] at he
      obtain ⟨e1, e2, e3⟩ := split_unique (P := fun e => match e with | .terminate _ _ => true | _ => false)
        (A := s1.access o.c ++ [.give o.c] ++ .rel o.c :: u.access o.c) (e := .terminate o.who o.c) (B := []) (by
          intro x hx
          rcases List.mem_append.1 hx with hx | hx
          · rcases List.mem_append.1 hx with hx | hx
            · exact hr x hx
            · simp at hx; subst hx; rfl
          · rcases List.mem_cons.1 hx with rfl | hx
            · rfl
            · exact hr x hx) (by simp) rfl (by rw [he]; simp)
      simp only [Ev.terminate.injEq] at e2
      obtain ⟨rfl, rfl⟩ := e2
      obtain ⟨p, q, hpq, hgq⟩ := H.exc o.c hx
      refine ⟨by simp [e3, hq2], .inr ⟨p, q ++ p2, by simp [hpq], ?_⟩⟩
      have z1 : (s1.access o.c).count (Ev.give o.c) = 0 := List.count_eq_zero.2 (by grind)
      have z2 : (u.access o.c).count (Ev.give o.c) = 0 := List.count_eq_zero.2 (by grind)
      rw [e1]
      simp [List.count_append, List.count_eq_zero.2 hgq, z1, z2]

/-- **C89 is false**: whoever destroys a handle, or assigns to it, when the function of its coroutine has ended with an exception that has not been
received yet terminates the program. -/
theorem C89_undelivered_terminates {as : List Act} {s : State} {tr : List Ev} (h : runs step State.init as = some (s, tr))
    (hd : s.dead = false) {w : Who} {g c : Nat} {k : Kind} (hk : k = .dtor ∨ ∃ f, f ≠ g ∧ k = .assign f) (hg : s.hd g = .own c)
    (hm : s.may w g k = true) (hw : w ≠ .co c) (hf : (s.life.ctx c).st = .finished) (hx : s.exc c = true) :
    ∃ s' es, runs step s [.start w g k, .done w false] = some (s', es) ∧ Ev.terminate w c ∈ es := by
  have hI := (hist_runs h).inv
  have hk1 : k ≠ .assign g := by rcases hk with rfl | ⟨f, hf, rfl⟩ <;> simp_all
  have h1 : step s (.start w g k) = some ({ s with ops := ⟨w, g, c, k⟩ :: s.ops }, s.access c) := by
    rw [step.eq_def, if_neg (by simp [hd])]
    simp [hm, hg, State.startOwn, hk1, hw]
  have h2 : ∃ s' es, step { s with ops := ⟨w, g, c, k⟩ :: s.ops } (.done w false) = some (s', es) ∧ Ev.terminate w c ∈ es := by
    rw [step.eq_def, if_neg (by simp [hd])]
    simp only [List.find?_cons_of_pos, beq_self_eq_true, State.endOp, hf, if_true]
    refine ⟨_, _, rfl, ?_⟩
    rcases hk with rfl | ⟨f, hf, rfl⟩ <;> simp [State.leave, hx]
  obtain ⟨s', es, h3, h4⟩ := h2
  exact ⟨s', s.access c ++ es, by simp [runs, h1, h3], by simp [h4]⟩

/-- **C89 is false**: a coroutine that destroys its own handle, or assigns to it, terminates the program, whether it is going to throw or not. -/
theorem C89_self_terminates {s : State} (hd : s.dead = false) {g c : Nat} {k : Kind} (hk : k = .dtor ∨ ∃ f, f ≠ g ∧ k = .assign f)
    (hg : s.hd g = .own c) (hm : s.may (.co c) g k = true) :
    ∃ s' es, step s (.start (.co c) g k) = some (s', es) ∧ Ev.terminate (.co c) c ∈ es ∧ s'.dead = true := by
  rw [step.eq_def, if_neg (by simp [hd])]
  simp only [hm, hg, if_true, State.startOwn]
  have hk1 : k ≠ .assign g := by rcases hk with rfl | ⟨f, hf, rfl⟩ <;> simp_all
  rw [if_neg hk1]
  refine ⟨_, _, rfl, ?_⟩
  rcases hk with rfl | ⟨f, hf, rfl⟩ <;> simp

/-- The events of a schedule. (Concerns co.cpp:11-79, co_co.h:36-167.) -/
def events (as : List Act) : Option (List Ev) := (runs step State.init as).map (·.2)

/-- A thread. (Concerns co.cpp:11-79, co_co.h:36-167.) -/
abbrev t8 : Who := .thread 8
/-- Another thread. (Concerns co.cpp:11-79, co_co.h:36-167.) -/
abbrev t9 : Who := .thread 9
/-- Coroutine 1 itself. (Concerns co.cpp:11-79, co_co.h:36-167.) -/
abbrev me : Who := .co 1

/-- Coroutine 1 gets the handle 0 and its turn. (Concerns co.cpp:11-79, co_co.h:36-167.) -/
def begun : List Act :=
  [.create 0 1 false, .life .idle, .life .begin, .life .walk, .life .walk, .life (.switch (some 1))]

example : events (begun ++ [.start t9 0 .dtor, .finish true, .done t9 false]) =
    some [.new 1, .fin 1, .threw 1, .give 1, .rel 1, .terminate t9 1] := by decide

example : events (begun ++ [.start t9 0 .dtor, .finish false, .done t9 false]) =
    some [.new 1, .fin 1, .rel 1, .ret t9 0 false] := by decide

/-- Not before the end, whatever the clock says; `wait_for` may. -/
example : events (begun ++ [.start t9 0 .join, .done t9 true]) = none ∧
    events (begun ++ [.start t9 0 .waitFor, .done t9 true]) = some [.new 1, .ret t9 0 false] := by decide

example : events (begun ++ [.start me 0 .dtor]) = some [.new 1, .rel 1, .terminate me 1] := by decide

example : events (begun ++ [.finish true, .start t9 0 .wait, .start t8 0 .wait, .done t8 false, .done t9 false, .start t9 0 .dtor, .done t9 false]) =
    some [.new 1, .fin 1, .threw 1, .give 1, .ret t8 0 true, .ret t9 0 false, .rel 1, .ret t9 0 false] := by decide

example : events (begun ++ [.create 5 2 true, .move 3 0, .detach 0, .start t9 3 (.assign 5), .finish false, .done t9 false, .detach 3]) =
    some [.new 1, .new 2, .fin 1, .rel 1, .ret t9 3 false, .det 2, .rel 2] := by decide

/-- **C88 is false when the env is stopped**: the object of a coroutine whose handle is in use is destroyed, and whatever is done with the handle
accesses it. -/
theorem C88_stop_uaf {s : State} (hd : s.dead = false) {g c : Nat} (hg : s.hd g = .own c) (hu : s.used g = false)
    (hf : (s.life.ctx c).fate = .freed) :
    (∃ s' es, step s (.detach g) = some (s', es) ∧ Ev.uaf c ∈ es) ∧
    ∀ w, w ≠ .co c → s.inOp w = false → ∃ s' es, step s (.start w g .dtor) = some (s', es) ∧ Ev.uaf c ∈ es := by
  constructor
  · rw [step.eq_def, if_neg (by simp [hd])]
    simp only [hu, hg, State.release, Life.step, hf, State.access]
    exact ⟨_, _, rfl, by simp⟩
  · intro w hw hin
    rw [step.eq_def, if_neg (by simp [hd])]
    simp only [State.may, hin, hu, hg, Kind.isWait, State.startOwn, hw, State.access, hf]
    exact ⟨_, _, rfl, by simp⟩

example : events [.create 0 1 false, .life .stop, .life .idle, .life .begin, .life .purge, .life .purge, .detach 0] =
    some [.new 1, .stopped, .det 1, .rel 1, .uaf 1] := by decide

/-! ## C90: empty handles -/

/-- The operations that make no test for an empty handle. (Concerns co.cpp:11-79, co_co.h:36-167.) -/
def Act.unchecked : Act → Option Nat
  | .query h .member => some h
  | .start (.co _) h .waitVal => some h
  | .start (.co _) h .waitFor => some h
  | _ => none

theorem null_step {s s' : State} {a : Act} {es : List Ev} {g : Nat} (hs : step s a = some (s', es)) (hm : Ev.null g ∈ es) :
    a.unchecked = some g ∧ s.hd g = .empty := by
  have ha : ∀ (u : State) c, Ev.null g ∉ u.access c := by
    intro u c he; simpa using (access_mem.1 he).1
  have hrel : ∀ (u : State) c, Ev.null g ∉ (u.release c).2 := by
    intro u c
    unfold State.release
    split <;> simp [ha]
  have hl : ∀ (u : State) o b, Ev.null g ∉ (u.leave o b).2 := by
    intro u o b
    unfold State.leave
    split
    iterate 3 simp
    · simp [hrel]
    · cases b <;> simp [hrel]
    · cases b <;> simp [hrel]
  have hdead : ¬ s.dead = true := by
    intro hx
    simp [step, hx] at hs
  rw [step.eq_def, if_neg hdead] at hs
  cases a with
  | life a =>
    dsimp only at hs
    split at hs
    · simp at hs
    · simp at hs
    · simp at hs
    · cases hr : Life.step s.life a with
      | none => simp [hr] at hs
      | some r =>
        simp only [hr, Option.map_some, Option.some.injEq, Prod.mk.injEq] at hs
        obtain ⟨rfl, rfl⟩ := hs
        split at hm <;> simp at hm
  | finish throws =>
    dsimp only at hs
    split at hs
    · simp at hs
    · cases hr : Life.step s.life .finish with
      | none => simp [hr] at hs
      | some r =>
        simp only [hr, Option.map_some, Option.some.injEq, Prod.mk.injEq] at hs
        obtain ⟨rfl, rfl⟩ := hs
        split at hm <;> simp at hm
  | create h c sh =>
    dsimp only at hs
    split at hs
    · cases hr : Life.step s.life (.new c sh true) with
      | none => simp [hr] at hs
      | some r =>
        simp only [hr, Option.map_some, Option.some.injEq, Prod.mk.injEq] at hs
        obtain ⟨rfl, rfl⟩ := hs
        simp at hm
    · simp at hs
  | move h k =>
    dsimp only at hs
    split at hs
    · simp only [Option.some.injEq, Prod.mk.injEq] at hs
      obtain ⟨rfl, rfl⟩ := hs
      simp at hm
    · simp at hs
  | detach h =>
    dsimp only at hs
    split at hs
    · simp at hs
    · split at hs
      · simp at hs
      · simp only [Option.some.injEq, Prod.mk.injEq] at hs
        obtain ⟨rfl, rfl⟩ := hs
        simp at hm
      · simp only [Option.some.injEq, Prod.mk.injEq] at hs
        obtain ⟨rfl, rfl⟩ := hs
        simp [hrel] at hm
  | query h k =>
    dsimp only at hs
    split at hs
    · simp at hs
    · split at hs
      · simp at hs
      all_goals simp only [Option.some.injEq, Prod.mk.injEq] at hs
      all_goals obtain ⟨rfl, rfl⟩ := hs
      · simp at hm
      · simp at hm; subst hm; exact ⟨rfl, ‹_›⟩
      · exact absurd hm (ha _ _)
  | start who h k =>
    dsimp only at hs
    split at hs
    · split at hs
      · simp at hs
      · simp only [Option.some.injEq] at hs
        have e2 : es = (s.startEmpty who h k).2 := by rw [hs]
        rw [e2] at hm
        cases k <;> simp only [State.startEmpty] at hm
        case assign => split at hm <;> simp at hm
        case waitVal => cases who <;> simp at hm; subst hm; exact ⟨rfl, ‹_›⟩
        case waitFor => cases who <;> simp at hm; subst hm; exact ⟨rfl, ‹_›⟩
        all_goals simp at hm
      · simp only [Option.some.injEq] at hs
        rename_i c _
        have e2 : es = (s.startOwn who h c k).2 := by rw [hs]
        rw [e2] at hm
        unfold State.startOwn at hm
        split at hm
        · simp at hm
        · split at hm
          · exact absurd hm (hl _ _ _)
          · exact absurd hm (ha _ _)
    · simp at hs
  | done who timeout =>
    dsimp only at hs
    split at hs
    · simp at hs
    · simp only [State.endOp] at hs
      split at hs
      · simp only [Option.some.injEq, Prod.mk.injEq] at hs
        obtain ⟨-, rfl⟩ := hs
        rcases List.mem_append.1 hm with hx | hx
        · rcases List.mem_append.1 hx with hx | hx
          · exact absurd hx (ha _ _)
          · split at hx <;> simp at hx
        · exact absurd hx (hl _ _ _)
      · split at hs
        · simp only [Option.some.injEq, Prod.mk.injEq] at hs
          obtain ⟨-, rfl⟩ := hs
          rcases List.mem_append.1 hm with hx | hx
          · exact absurd hx (ha _ _)
          · simp at hx
        · simp at hs

/-- **C90, for the operations that test the pointer**: in every execution a null pointer is dereferenced only by `wait<T>()` for a type other than
`void` or by `wait_for`/`wait_until`, called by a coroutine, or by a forwarded member function; and the handle was empty. What is missing:
`C90_empty_dereferenced`. -/
theorem C90_null_only_partial {as : List Act} {s : State} {pre post : List Ev} {g : Nat}
    (h : runs step State.init as = some (s, pre ++ Ev.null g :: post)) :
    ∃ as1 a as2 s1 tr, as = as1 ++ a :: as2 ∧ runs step State.init as1 = some (s1, tr) ∧ s1.hd g = .empty ∧ a.unchecked = some g := by
  obtain ⟨as1, a, as2, s1, s2, p1, p2, q1, q2, rfl, h1, h2, h3, rfl, rfl⟩ := runs_split as _ _ _ _ _ h
  obtain ⟨e1, e2⟩ := null_step (g := g) h2 (by simp)
  exact ⟨as1, a, as2, s1, p1, rfl, h1, e2, e1⟩

/-- **C90**: on an empty handle `wait<void>()`, `join()`, `detach()` and `name()` return at once and change nothing; destruction succeeds. A thread
that is not running a coroutine gets an exception from the other waits. -/
theorem C90_empty_harmless {s : State} (hd : s.dead = false) {w : Who} {g : Nat} (hg : s.hd g = .empty) (hu : s.used g = false)
    (hw : s.inOp w = false) :
    step s (.start w g .wait) = some (s, [.ret w g false]) ∧ step s (.start w g .join) = some (s, [.ret w g false]) ∧
    step s (.detach g) = some (s, []) ∧ step s (.query g .name) = some (s, []) ∧
    step s (.start w g .dtor) = some ({ s with hd := upd s.hd g .raw }, [.ret w g false]) ∧
    ∀ t, w = .thread t → ∀ k, k = .waitVal ∨ k = .waitFor → step s (.start w g k) = some (s, [.ret w g true]) := by
  have hh : s.held g = false := by
    rw [State.held, List.any_eq_false]
    intro o ho
    have := used_false hu o ho
    simp [this]
  refine ⟨?_, ?_, ?_, ?_, ?_, ?_⟩
  iterate 5 simp [step, hd, State.may, hw, hu, hh, hg, Kind.isWait, State.startEmpty]
  rintro t rfl k (rfl | rfl) <;> simp [step, hd, State.may, hw, hh, hg, Kind.isWait, State.startEmpty]

/-- **C90 is false**: the other operations dereference the null pointer of an empty handle. -/
theorem C90_empty_dereferenced {s s' : State} {a : Act} {es : List Ev} {g : Nat} (ha : a.unchecked = some g) (hg : s.hd g = .empty)
    (hs : step s a = some (s', es)) : es = [.null g] ∧ s'.dead = true := by
  have hdead : ¬ s.dead = true := by
    intro hx
    simp [step, hx] at hs
  rw [step.eq_def, if_neg hdead] at hs
  unfold Act.unchecked at ha
  split at ha
  all_goals simp at ha
  all_goals subst ha
  all_goals dsimp only at hs
  all_goals split at hs
  all_goals simp [hg, State.startEmpty] at hs
  all_goals obtain ⟨rfl, rfl⟩ := hs
  all_goals simp

example : events (begun ++ [.detach 0, .start t9 0 .waitVal, .start me 0 .waitVal]) =
    some [.new 1, .det 1, .rel 1, .ret t9 0 true, .null 0] := by decide
example : events (begun ++ [.move 4 0, .query 0 .member]) = some [.new 1, .null 0] := by decide
example : events (begun ++ [.detach 0, .start t9 0 .wait, .start t9 0 .join, .detach 0, .query 0 .name, .start t9 0 .dtor]) =
    some [.new 1, .det 1, .rel 1, .ret t9 0 false, .ret t9 0 false, .ret t9 0 false] := by decide

end Verif.Handle
