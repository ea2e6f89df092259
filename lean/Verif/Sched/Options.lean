import Verif.Sched.Priority

/-!
# The options, the name and the id of a coroutine (C136)

`co({with_name("a"), with_priority(3)}, f)` builds a `co_ctx_config` from a list of options (co_co.h:130-139,
co_ctx_config.h:10-34) and creates the coroutine from it. `id()` and `name()` of the handle, and `this_co::id()` and
`this_co::name()` inside, tell which coroutine it is (source/cocpp/co/co.cpp:22-39, 89-97). Here: any number of threads, handles
and coroutines; the allocator may give any free address to a new coroutine.
-/

namespace Verif.Options
open Verif

/-- `co_ctx_config` (co_ctx_config.h:10-17); `bind = none` is the null pointer. -/
structure Config where
  stackSize : Nat
  name : String
  priority : UInt64
  bind : Option Nat
  shared : Bool
deriving DecidableEq, Repr

/-- The default values (co_ctx_config.h:12-16, co_define.h:15). -/
def Config.default : Config := ⟨10485760, "__unknown__", 99, none, false⟩

/-- An option: one of the five of the library, or a function of the user's, which may throw (`none`)
(co_ctx_config.h:19-34, co_co.h:68). -/
inductive Opt
  | stackSize (n : Nat)
  | name (s : String)
  | priority (n : UInt64)
  | bind (e : Option Nat)
  | shared (b : Bool)
  | user (f : Config → Option Config)

/-- Call an option (co_ctx_config.h:19-25). -/
def Opt.apply : Opt → Config → Option Config
  | .stackSize n, c => some { c with stackSize := n }
  | .name s, c => some { c with name := s }
  | .priority n, c => some { c with priority := n }
  | .bind e, c => some { c with bind := e }
  | .shared b, c => some { c with shared := b }
  | .user f, c => f c

/-- The loop over the options, from the configuration `c` (co_co.h:133-136). -/
def applyAll : List Opt → Config → Option Config
  | [], c => some c
  | o :: os, c => match o.apply c with
    | some c' => applyAll os c'
    | none => none

/-- The configuration for a list of options (co_co.h:132-136). -/
def configOf (opts : List Opt) : Option Config := applyAll opts .default

/-- A `co_ctx`. `num`: which one it is (not in the code; the how-manieth that was created). `on`: the env that is running it.
`locked`: `CO_CTX_FLAG_LOCKED`, it has a handle. `stack`: the size of its own stack (co_ctx.cpp:52-58, co_ctx_factory.cpp:15-32). -/
structure Obj where
  num : Nat
  cfg : Config
  prio : Int
  bound : Bool
  onShared : Bool
  stack : Option Nat
  idle : Bool
  locked : Bool
  fin : Bool
  on : Option Nat
deriving DecidableEq, Repr

/-- `create_ctx` (co_ctx_factory.cpp:15-32, co_ctx.cpp:52-58). -/
def Obj.new (num : Nat) (c : Config) : Obj :=
  ⟨num, c, (Priority.Ctx.new c.priority).prio, c.bind.isSome, c.shared, if c.shared then none else some c.stackSize, false, false,
    false, none⟩

/-- The configuration of an idle coroutine (co_env_factory.cpp:56-65). -/
def Config.idle : Config := ⟨0, "idle", 99, none, false⟩

/-- The state: the coroutine at each address, the address in each handle (`ctx__`, co_co.h:36; `none` is the null pointer), the
current coroutine of each env, the number of coroutines created so far, the size of shared stacks (a parameter). -/
structure State where
  obj : Nat → Option Obj
  hnd : Nat → Option Nat
  cur : Nat → Option Nat
  count : Nat
  shsz : Nat

/-- What the user sees. `made`: coroutine `k` was created with these options, priority and stack. `threw`: an option threw.
`crash`: the first word is written outside the stack. `id`, `name`, `config`: an answer about coroutine `k`. `empty`, `emptyName`:
the answer of an empty handle. `released`: the handle of `k` let it go; `gone`: `k` was destroyed. `ub`: a destroyed coroutine
was used. (co.cpp:11-39, 89-97; co_vos_gcc_x86_64.cpp:98-107.) -/
inductive Ev
  | made (k : Nat) (opts : List Opt) (prio : Int) (bound : Bool) (stack : Option Nat)
  | threw
  | crash
  | id (k v : Nat)
  | name (k : Nat) (s : String)
  | config (k : Nat) (c : Config)
  | empty (v : Nat)
  | emptyName (s : String)
  | released (k : Nat)
  | gone (k : Nat)
  | ub

/-- Choices. (Concerns co_co.h:36-139, co_ctx_config.h:10-34.) -/
inductive Act
  /-- a thread or env comes into being, with its idle coroutine at address `a` (co_env_factory.cpp:14-26, 42-65) -/
  | env (e a : Nat)
  /-- `co h(opts, f)`; the allocator gives address `a` (co_co.h:103-121, 130-139, co_manager.cpp:421-441) -/
  | create (h a : Nat) (opts : List Opt)
  /-- env `e` switches to the coroutine at `a` (co_env.cpp:249-276) -/
  | switch (e a : Nat)
  /-- the coroutine's function is over (co_ctx.cpp:65-86) -/
  | finish (a : Nat)
  /-- the env destroys it (co_env.cpp:201-213, co_ctx_factory.cpp:34-45) -/
  | destroy (a : Nat)
  /-- `detach`, or the end of `join` (co.cpp:11-20, 52-57); simplified: `join` waits first -/
  | release (h : Nat)
  /-- `h' = std::move(h)` with `h'` empty (co.cpp:64-79) -/
  | move (h h' : Nat)
  /-- `this_co::id()`, `this_co::name()` on env `e` (co.cpp:89-97) -/
  | thisId (e : Nat)
  | thisName (e : Nat)
  /-- `h.id()`, `h.name()`, `h.ctx_config()` (co.cpp:22-39, co_co.h:55) -/
  | hId (h : Nat)
  | hName (h : Nat)
  | hConfig (h : Nat)

/-- Nothing there yet. (Concerns co_co.h:36-139, co_ctx_config.h:10-34.) -/
def State.init (shsz : Nat) : State := ⟨fun _ => none, fun _ => none, fun _ => none, 0, shsz⟩

/-- One step. A coroutine is destroyed only when it has finished, is not running and has no handle (co_env.cpp:201-213,
co_ctx.cpp:146-149). `init_ctx` writes 8 bytes below the top of the stack (co_vos_gcc_x86_64.cpp:101-106, co_stack.cpp:26-29), which are
outside when the stack is smaller than that. Address 0 is never given out. -/
def step (s : State) : Act → Option (State × List Ev)
  | .env e a => if s.cur e = none ∧ s.obj a = none ∧ a ≠ 0 then
      some ({ s with obj := upd s.obj a (some { Obj.new s.count .idle with idle := true, on := some e }),
                     cur := upd s.cur e (some a), count := s.count + 1 }, [])
    else none
  | .create h a opts => if s.hnd h = none ∧ s.obj a = none ∧ a ≠ 0 then
      match configOf opts with
      | none => some (s, [.threw])
      | some c =>
        let o := Obj.new s.count c
        if o.stack.getD s.shsz < 8 then some (s, [.crash])
        else some ({ s with obj := upd s.obj a (some { o with locked := true }), hnd := upd s.hnd h (some a), count := s.count + 1 },
          [.made s.count opts o.prio o.bound o.stack])
    else none
  | .switch e a => match s.cur e, s.obj a with
    | some b, some o => if o.on = none ∧ o.fin = false then
        match s.obj b with
        | some q => some ({ s with obj := upd (upd s.obj b (some { q with on := none })) a (some { o with on := some e }),
                                   cur := upd s.cur e (some a) }, [])
        | none => some (s, [.ub])
      else none
    | _, _ => none
  | .finish a => match s.obj a with
    | some o => if o.on.isSome ∧ o.idle = false then some ({ s with obj := upd s.obj a (some { o with fin := true }) }, []) else none
    | none => none
  | .destroy a => match s.obj a with
    | some o => if o.fin ∧ o.locked = false ∧ o.on = none ∧ o.idle = false then
        some ({ s with obj := upd s.obj a none }, [.gone o.num]) else none
    | none => none
  | .release h => match s.hnd h with
    | some a => match s.obj a with
      | some o => some ({ s with obj := upd s.obj a (some { o with locked := false }), hnd := upd s.hnd h none }, [.released o.num])
      | none => some (s, [.ub])
    | none => some (s, [])
  | .move h h' => if h ≠ h' ∧ s.hnd h' = none then
      some ({ s with hnd := upd (upd s.hnd h' (s.hnd h)) h none }, []) else none
  | .thisId e => match s.cur e with
    | some a => match s.obj a with
      | some o => some (s, [.id o.num a])
      | none => some (s, [.ub])
    | none => none
  | .thisName e => match s.cur e with
    | some a => match s.obj a with
      | some o => some (s, [.name o.num o.cfg.name])
      | none => some (s, [.ub])
    | none => none
  | .hId h => match s.hnd h with
    | some a => match s.obj a with
      | some o => some (s, [.id o.num a])
      | none => some (s, [.ub])
    | none => some (s, [.empty 0])
  | .hName h => match s.hnd h with
    | some a => match s.obj a with
      | some o => some (s, [.name o.num o.cfg.name])
      | none => some (s, [.ub])
    | none => some (s, [.emptyName ""])
  | .hConfig h => match s.hnd h with
    | some a => match s.obj a with
      | some o => some (s, [.config o.num o.cfg])
      | none => some (s, [.ub])
    | none => none

/-! ## The last option of a kind counts -/

theorem applyAll_append (p q : List Opt) (c : Config) : applyAll (p ++ q) c = (applyAll p c).bind (applyAll q) := by
  induction p generalizing c with
  | nil => rfl
  | cons o p ih =>
    simp only [List.cons_append, applyAll]
    cases o.apply c <;> simp [ih]

/-- Options after which field `get` is what it was before. -/
theorem keeps {α : Type} (get : Config → α) (post : List Opt) (h : ∀ o ∈ post, ∀ c c', o.apply c = some c' → get c' = get c)
    (c c' : Config) (hc : applyAll post c = some c') : get c' = get c := by
  induction post generalizing c with
  | nil => simp only [applyAll, Option.some.injEq] at hc; rw [hc]
  | cons o p ih =>
    simp only [applyAll] at hc
    cases ho : o.apply c with
    | none => simp [ho] at hc
    | some d =>
      simp only [ho] at hc
      rw [ih (fun q hq => h q (List.mem_cons_of_mem _ hq)) d hc]
      exact h o List.mem_cons_self c d ho

theorem last {α : Type} (get : Config → α) (o : Opt) (v : α) (ho : ∀ c c', o.apply c = some c' → get c' = v) (pre post : List Opt)
    (h : ∀ o ∈ post, ∀ c c', o.apply c = some c' → get c' = get c) (c : Config) (hc : configOf (pre ++ o :: post) = some c) :
    get c = v := by
  rw [configOf, applyAll_append] at hc
  cases h1 : applyAll pre .default with
  | none => simp [h1] at hc
  | some d =>
    simp only [h1, Option.bind_some, applyAll] at hc
    cases h2 : o.apply d with
    | none => simp [h2] at hc
    | some e =>
      simp only [h2] at hc
      rw [keeps get post h e c hc, ho d e h2]

/-- **C136, options.** Whatever options come before, and whatever options of the library that are not of its kind come after, an
option has its effect: the configuration has the value given. -/
theorem C136_last_wins (pre post : List Opt) (c : Config) :
    (∀ v, (∀ o ∈ post, (∀ x, o ≠ .name x) ∧ ∀ f, o ≠ .user f) → configOf (pre ++ .name v :: post) = some c → c.name = v) ∧
    (∀ v, (∀ o ∈ post, (∀ x, o ≠ .priority x) ∧ ∀ f, o ≠ .user f) → configOf (pre ++ .priority v :: post) = some c →
      c.priority = v) ∧
    (∀ v, (∀ o ∈ post, (∀ x, o ≠ .stackSize x) ∧ ∀ f, o ≠ .user f) → configOf (pre ++ .stackSize v :: post) = some c →
      c.stackSize = v) ∧
    (∀ v, (∀ o ∈ post, (∀ x, o ≠ .bind x) ∧ ∀ f, o ≠ .user f) → configOf (pre ++ .bind v :: post) = some c → c.bind = v) ∧
    (∀ v, (∀ o ∈ post, (∀ x, o ≠ .shared x) ∧ ∀ f, o ≠ .user f) → configOf (pre ++ .shared v :: post) = some c → c.shared = v) := by
  refine ⟨fun v h hc => last (·.name) _ v ?_ pre post ?_ c hc, fun v h hc => last (·.priority) _ v ?_ pre post ?_ c hc,
    fun v h hc => last (·.stackSize) _ v ?_ pre post ?_ c hc, fun v h hc => last (·.bind) _ v ?_ pre post ?_ c hc,
    fun v h hc => last (·.shared) _ v ?_ pre post ?_ c hc⟩
  all_goals first
    | (intro d e hd; simp only [Opt.apply, Option.some.injEq] at hd; subst hd; rfl)
    | (intro o ho d e hd
       obtain ⟨h1, h2⟩ := h o ho
       clear h hc ho
       cases o <;> grind [Opt.apply])

/-- **C136, defaults.** A field for which there is no option, and no function of the user's, has its default value. -/
theorem C136_default (opts : List Opt) (c : Config) (hc : configOf opts = some c) (hu : ∀ o ∈ opts, ∀ f, o ≠ .user f) :
    ((∀ o ∈ opts, ∀ x, o ≠ .name x) → c.name = "__unknown__") ∧ ((∀ o ∈ opts, ∀ x, o ≠ .priority x) → c.priority = 99) ∧
    ((∀ o ∈ opts, ∀ x, o ≠ .stackSize x) → c.stackSize = 10 * 1024 * 1024) ∧
    ((∀ o ∈ opts, ∀ x, o ≠ .bind x) → c.bind = none) ∧ ((∀ o ∈ opts, ∀ x, o ≠ .shared x) → c.shared = false) := by
  refine ⟨fun h => keeps (·.name) opts ?_ .default c hc, fun h => keeps (·.priority) opts ?_ .default c hc,
    fun h => keeps (·.stackSize) opts ?_ .default c hc, fun h => keeps (·.bind) opts ?_ .default c hc,
    fun h => keeps (·.shared) opts ?_ .default c hc⟩
  all_goals
    intro o ho d e hd
    have h1 := h o ho
    have h2 := hu o ho
    clear h hu hc ho
    cases o <;> grind [Opt.apply]

/-- Without functions of the user's there is always a configuration. -/
theorem configOf_some (opts : List Opt) (hu : ∀ o ∈ opts, ∀ f, o ≠ .user f) : ∃ c, configOf opts = some c := by
  unfold configOf
  generalize Config.default = d
  induction opts generalizing d with
  | nil => exact ⟨d, rfl⟩
  | cons o p ih =>
    have h1 := hu o List.mem_cons_self
    have h2 := fun q hq => hu q (List.mem_cons_of_mem o hq)
    cases o
    case user f => exact absurd rfl (h1 f)
    all_goals exact ih h2 _

/-- Two names, and the priority in between. -/
example : configOf [.name "a", .priority 3, .name "b", .shared true] = some ⟨10485760, "b", 3, none, true⟩ := by decide

/-- A function of the user's changes what was set before it. -/
example : configOf [.name "a", .user fun c => some { c with name := c.name ++ "!" }] = some ⟨10485760, "a!", 99, none, false⟩ := by
  decide

/-! ## What is created -/

/-- What is known about coroutines and answers. (Concerns co_co.h:36-139, co_ctx_config.h:10-34.) -/
structure Inv (s : State) (tr : List Ev) : Prop where
  /-- who is current exists and is marked so -/
  cur : ∀ e a, s.cur e = some a → (s.obj a).bind Obj.on = some e
  /-- a handle's coroutine exists and is locked -/
  hnd : ∀ h a, s.hnd h = some a → (s.obj a).map Obj.locked = some true
  /-- one handle only -/
  one : ∀ h h' a, s.hnd h = some a → s.hnd h' = some a → h = h'
  nz : ∀ a o, s.obj a = some o → a ≠ 0
  num : ∀ a o, s.obj a = some o → o.num < s.count
  inj : ∀ a b o q, s.obj a = some o → s.obj b = some q → o.num = q.num → a = b
  /-- answers are about coroutines created, and are true while it is there -/
  id : ∀ k v, Ev.id k v ∈ tr → k < s.count ∧ v ≠ 0 ∧ ∀ a o, s.obj a = some o → o.num = k → a = v
  same : ∀ k v w, Ev.id k v ∈ tr → Ev.id k w ∈ tr → v = w
  gone : ∀ k, Ev.gone k ∈ tr → k < s.count ∧ ∀ a o, s.obj a = some o → o.num ≠ k
  /-- what was made has the configuration of its options -/
  made : ∀ k opts p b z, Ev.made k opts p b z ∈ tr → k < s.count ∧
    ∀ a o, s.obj a = some o → o.num = k → configOf opts = some o.cfg
  name : ∀ k n, Ev.name k n ∈ tr → k < s.count ∧ ∀ a o, s.obj a = some o → o.num = k → n = o.cfg.name
  config : ∀ k c, Ev.config k c ∈ tr → k < s.count ∧ ∀ a o, s.obj a = some o → o.num = k → c = o.cfg
  names : ∀ k opts p b z n, Ev.made k opts p b z ∈ tr → Ev.name k n ∈ tr → ∃ c, configOf opts = some c ∧ n = c.name
  configs : ∀ k opts p b z c, Ev.made k opts p b z ∈ tr → Ev.config k c ∈ tr → configOf opts = some c
  ub : Ev.ub ∉ tr

/-- Take a step apart. -/
local macro "crunch" hs:ident : tactic => `(tactic| (
  simp only [step] at $hs:ident
  repeat' split at $hs:ident
  all_goals first | (simp only [reduceCtorEq] at $hs:ident; done) | skip
  all_goals simp only [Option.some.injEq, Prod.mk.injEq] at $hs:ident
  all_goals (have e1 := And.left $hs:ident; have e2 := And.right $hs:ident; clear $hs:ident; subst e1; subst e2)))

attribute [local grind =] upd_apply Obj.new

/-- The fields of the invariant, for a step of kind `a`. -/
local macro "fields" hs:ident h:ident : tactic => `(tactic| (
  obtain ⟨h1, h2, h3, h4, h5, h6, h7, h8, h10, h11, h12, h13, h14, h15, h17⟩ := $h:ident
  crunch $hs
  all_goals constructor
  all_goals (try dsimp only)
  all_goals first
    | grind
    | (clear h1 h2 h3 h4 h5 h7 h8 h10 h11 h12 h13 h14 h15 h17
       intro x y o q hx hy he
       have hxy := h6 x y
       simp only [upd_apply] at hx hy
       grind)))

theorem inv_env {s s' : State} {e a : Nat} {es tr : List Ev} (hI : Inv s tr) (hs : step s (.env e a) = some (s', es)) :
    Inv s' (tr ++ es) := by fields hs hI

theorem inv_create {s s' : State} {h a : Nat} {opts : List Opt} {es tr : List Ev} (hI : Inv s tr) (hs : step s (.create h a opts) = some (s', es)) :
    Inv s' (tr ++ es) := by fields hs hI

theorem inv_switch {s s' : State} {e a : Nat} {es tr : List Ev} (hI : Inv s tr) (hs : step s (.switch e a) = some (s', es)) :
    Inv s' (tr ++ es) := by fields hs hI

theorem inv_finish {s s' : State} {a : Nat} {es tr : List Ev} (hI : Inv s tr) (hs : step s (.finish a) = some (s', es)) :
    Inv s' (tr ++ es) := by fields hs hI

theorem inv_destroy {s s' : State} {a : Nat} {es tr : List Ev} (hI : Inv s tr) (hs : step s (.destroy a) = some (s', es)) :
    Inv s' (tr ++ es) := by fields hs hI

theorem inv_release {s s' : State} {h : Nat} {es tr : List Ev} (hI : Inv s tr) (hs : step s (.release h) = some (s', es)) :
    Inv s' (tr ++ es) := by fields hs hI

theorem inv_move {s s' : State} {h h2 : Nat} {es tr : List Ev} (hI : Inv s tr) (hs : step s (.move h h2) = some (s', es)) :
    Inv s' (tr ++ es) := by fields hs hI

theorem inv_thisId {s s' : State} {e : Nat} {es tr : List Ev} (hI : Inv s tr) (hs : step s (.thisId e) = some (s', es)) :
    Inv s' (tr ++ es) := by fields hs hI

theorem inv_thisName {s s' : State} {e : Nat} {es tr : List Ev} (hI : Inv s tr) (hs : step s (.thisName e) = some (s', es)) :
    Inv s' (tr ++ es) := by fields hs hI

theorem inv_hId {s s' : State} {h : Nat} {es tr : List Ev} (hI : Inv s tr) (hs : step s (.hId h) = some (s', es)) :
    Inv s' (tr ++ es) := by fields hs hI

theorem inv_hName {s s' : State} {h : Nat} {es tr : List Ev} (hI : Inv s tr) (hs : step s (.hName h) = some (s', es)) :
    Inv s' (tr ++ es) := by fields hs hI

theorem inv_hConfig {s s' : State} {h : Nat} {es tr : List Ev} (hI : Inv s tr) (hs : step s (.hConfig h) = some (s', es)) :
    Inv s' (tr ++ es) := by fields hs hI

theorem inv_step {s s' : State} {a : Act} {es tr : List Ev} (h : Inv s tr) (hs : step s a = some (s', es)) : Inv s' (tr ++ es) := by
  cases a
  case env => exact inv_env h hs
  case create => exact inv_create h hs
  case switch => exact inv_switch h hs
  case finish => exact inv_finish h hs
  case destroy => exact inv_destroy h hs
  case release => exact inv_release h hs
  case move => exact inv_move h hs
  case thisId => exact inv_thisId h hs
  case thisName => exact inv_thisName h hs
  case hId => exact inv_hId h hs
  case hName => exact inv_hName h hs
  case hConfig => exact inv_hConfig h hs

theorem inv_runs {z : Nat} {as : List Act} {s : State} {tr : List Ev} (h : runs step (State.init z) as = some (s, tr)) :
    Inv s tr := by
  have := runs_hist Inv (fun s a s' es tr h hs => inv_step h hs) as (State.init z) s tr []
    (by constructor <;> simp [State.init]) h
  simpa using this

/-- What a step does to a coroutine that exists: it stays, with its number, and locked unless its handle lets it go; or it was not
locked and is destroyed. -/
theorem keep_step {s s' : State} {a : Act} {es tr : List Ev} (hI : Inv s tr) (hs : step s a = some (s', es)) {x : Nat} {o : Obj}
    (hx : s.obj x = some o) :
    match s'.obj x with
    | some o' => o'.num = o.num ∧ (o.locked = true → o'.locked = true ∨ Ev.released o.num ∈ es)
    | none => o.locked = false ∧ Ev.gone o.num ∈ es := by
  obtain ⟨-, -, -, -, -, h6, -⟩ := hI
  cases a <;> crunch hs <;> (try dsimp only) <;> grind

/-- Every coroutine created exists or is gone; one whose handle did not let it go exists. -/
theorem alive_runs {z : Nat} {as : List Act} {s : State} {tr : List Ev} (h : runs step (State.init z) as = some (s, tr)) :
    Inv s tr ∧ (∀ k, k < s.count → Ev.gone k ∉ tr → ∃ a o, s.obj a = some o ∧ o.num = k) ∧
    ∀ k opts p b z, Ev.made k opts p b z ∈ tr → Ev.released k ∉ tr → ∃ a o, s.obj a = some o ∧ o.num = k ∧ o.locked = true := by
  have := runs_hist (step := step) (fun s tr => Inv s tr ∧
      (∀ k, k < s.count → Ev.gone k ∉ tr → ∃ a o, s.obj a = some o ∧ o.num = k) ∧
      ∀ k opts p b z, Ev.made k opts p b z ∈ tr → Ev.released k ∉ tr → ∃ a o, s.obj a = some o ∧ o.num = k ∧ o.locked = true)
    (by
      intro s a s' es tr ⟨g1, g2, g3⟩ hs
      have hold : ∀ k, (k < s.count → Ev.gone k ∉ tr ++ es → ∃ a o, s'.obj a = some o ∧ o.num = k) := by
        intro k hk hn
        simp only [List.mem_append, not_or] at hn
        obtain ⟨x, o, h1, h2⟩ := g2 k hk hn.1
        have hx := keep_step g1 hs h1
        split at hx
        · rename_i o' ho'; exact ⟨x, o', ho', by omega⟩
        · rw [h2] at hx; exact absurd hx.2 hn.2
      have hold' : ∀ k opts p b z, Ev.made k opts p b z ∈ tr → Ev.released k ∉ tr ++ es →
          ∃ a o, s'.obj a = some o ∧ o.num = k ∧ o.locked = true := by
        intro k opts p b z hm hn
        simp only [List.mem_append, not_or] at hn
        obtain ⟨x, o, h1, h2, h3⟩ := g3 k opts p b z hm hn.1
        have hx := keep_step g1 hs h1
        split at hx
        · rename_i o' ho'
          refine ⟨x, o', ho', by omega, ?_⟩
          rcases hx.2 h3 with h | h
          · exact h
          · rw [h2] at h; exact absurd h hn.2
        · simp [h3] at hx
      refine ⟨inv_step g1 hs, ?_, ?_⟩
      · intro k hk hn
        by_cases hk' : k < s.count
        · exact hold k hk' hn
        · cases a <;> crunch hs <;> (try dsimp only at hk) <;> first | omega | skip
          · exact ⟨_, _, upd_same .., by simp only [Obj.new]; omega⟩
          · exact ⟨_, _, upd_same .., by simp only [Obj.new]; omega⟩
      · intro k opts p b z hm hn
        rcases List.mem_append.mp hm with hm | hm
        · exact hold' k opts p b z hm hn
        · clear hold hold'
          cases a <;> crunch hs <;> simp only [List.mem_singleton, List.not_mem_nil, reduceCtorEq] at hm
          simp only [Ev.made.injEq] at hm
          exact ⟨_, _, upd_same .., by simp only [Obj.new]; omega, rfl⟩)
    as (State.init z) s tr [] ⟨by constructor <;> simp [State.init], by simp [State.init], by simp⟩ h
  simpa using this

/-- **C136, ids.** All answers to the question for the id of a coroutine are the same, asked inside it (`this_co::id()`) or of its
handle, and none is 0, which is the id of an empty handle. Two coroutines with the same id were not there at the same time: one of
them has been destroyed. -/
theorem C136_ids {z : Nat} {as : List Act} {s : State} {tr : List Ev} (h : runs step (State.init z) as = some (s, tr)) :
    (∀ k v w, Ev.id k v ∈ tr → Ev.id k w ∈ tr → v = w) ∧ (∀ k v, Ev.id k v ∈ tr → v ≠ 0) ∧
    ∀ k k' v, k ≠ k' → Ev.id k v ∈ tr → Ev.id k' v ∈ tr → Ev.gone k ∈ tr ∨ Ev.gone k' ∈ tr := by
  obtain ⟨hI, hA, -⟩ := alive_runs h
  refine ⟨hI.same, fun k v hk => (hI.id k v hk).2.1, fun k k' v hne h1 h2 => ?_⟩
  by_cases g1 : Ev.gone k ∈ tr
  · exact .inl g1
  by_cases g2 : Ev.gone k' ∈ tr
  · exact .inr g2
  obtain ⟨a, o, ha, ho⟩ := hA k (hI.id k v h1).1 g1
  obtain ⟨b, q, hb, hq⟩ := hA k' (hI.id k' v h2).1 g2
  have e1 := (hI.id k v h1).2.2 a o ha ho
  have e2 := (hI.id k' v h2).2.2 b q hb hq
  subst e1 e2
  rw [ha] at hb
  cases hb
  omega

/-- **C136, ids of coroutines one has.** As long as neither of two coroutines was let go by its handle, their ids differ. -/
theorem C136_owned_ids_differ {z : Nat} {as : List Act} {s : State} {tr : List Ev} (h : runs step (State.init z) as = some (s, tr))
    {k k' v v' : Nat} {o o' : List Opt} {p p' : Int} {b b' : Bool} {t t' : Option Nat} (hm : Ev.made k o p b t ∈ tr)
    (hm' : Ev.made k' o' p' b' t' ∈ tr) (hr : Ev.released k ∉ tr) (hr' : Ev.released k' ∉ tr) (hne : k ≠ k')
    (hi : Ev.id k v ∈ tr) (hi' : Ev.id k' v' ∈ tr) : v ≠ v' := by
  obtain ⟨hI, -, hR⟩ := alive_runs h
  rintro rfl
  obtain ⟨a, q, ha, hq, -⟩ := hR k o p b t hm hr
  obtain ⟨a', q', ha', hq', -⟩ := hR k' o' p' b' t' hm' hr'
  have e1 := (hI.id k v hi).2.2 a q ha hq
  have e2 := (hI.id k' v hi').2.2 a' q' ha' hq'
  subst e1 e2
  rw [ha] at ha'
  cases ha'
  omega

/-- **C136, names and configurations.** Every answer to the question for the name or the configuration of a coroutine, inside or
through the handle, is what its options say; no question uses a destroyed coroutine. -/
theorem C136_answers {z : Nat} {as : List Act} {s : State} {tr : List Ev} (h : runs step (State.init z) as = some (s, tr)) :
    (∀ k opts p b t n, Ev.made k opts p b t ∈ tr → Ev.name k n ∈ tr → ∃ c, configOf opts = some c ∧ n = c.name) ∧
    (∀ k opts p b t c, Ev.made k opts p b t ∈ tr → Ev.config k c ∈ tr → configOf opts = some c) ∧ Ev.ub ∉ tr :=
  ⟨(inv_runs h).names, (inv_runs h).configs, (inv_runs h).ub⟩

/-- **C136, what the options do.** A coroutine created with options has the priority they give, limited to 99 (below 2^31; the rest is
`C47_option_wraps`), is bound exactly if they name an env, and has a stack of its own of the size they give unless they ask for the
shared one; its stack has room for at least one word. -/
theorem C136_made {z : Nat} {as : List Act} {s : State} {tr : List Ev} (h : runs step (State.init z) as = some (s, tr))
    {k : Nat} {opts : List Opt} {p : Int} {b : Bool} {t : Option Nat} (hm : Ev.made k opts p b t ∈ tr) :
    ∃ c, configOf opts = some c ∧ (c.priority.toNat < 2 ^ 31 → p = min 99 (c.priority.toNat : Int)) ∧ 0 ≤ p ∧ p ≤ 99 ∧
      (b = true ↔ ∃ e, c.bind = some e) ∧ (c.shared = true → t = none ∧ 8 ≤ z) ∧
      (c.shared = false → t = some c.stackSize ∧ 8 ≤ c.stackSize) := by
  have key := runs_hist (step := step) (fun s tr => s.shsz = z ∧ ∀ k opts p b t, Ev.made k opts p b t ∈ tr →
      ∃ c, configOf opts = some c ∧ p = (Priority.Ctx.new c.priority).prio ∧ b = c.bind.isSome ∧
        t = (if c.shared then none else some c.stackSize) ∧ 8 ≤ t.getD z)
    (by
      intro s a s' es tr ⟨g1, g2⟩ hs
      cases a
      case create h x opts =>
        crunch hs
        · exact ⟨g1, fun k o p b t hm => g2 k o p b t (by simpa using hm)⟩
        · exact ⟨g1, fun k o p b t hm => g2 k o p b t (by simpa using hm)⟩
        · rename_i c hc hz
          refine ⟨g1, fun k o p b t hm => ?_⟩
          rcases List.mem_append.mp hm with hm | hm
          · exact g2 k o p b t hm
          · simp only [List.mem_singleton, Ev.made.injEq] at hm
            obtain ⟨rfl, rfl, rfl, rfl, rfl⟩ := hm
            refine ⟨c, hc, rfl, rfl, rfl, ?_⟩
            rw [g1] at hz
            simp only [Obj.new] at hz ⊢
            omega
      all_goals
        crunch hs
        all_goals exact ⟨g1, fun k o p b t hm => g2 k o p b t (by simpa using hm)⟩)
    as (State.init z) s tr [] ⟨rfl, by simp⟩ h
  obtain ⟨c, h1, rfl, rfl, rfl, h2⟩ := key.2 k opts p b t (by simpa using hm)
  refine ⟨c, h1, fun hp => Priority.C47_option_partial _ hp, (Priority.C47_range _).1, (Priority.C47_range _).2, ?_, ?_, ?_⟩
  · exact Option.isSome_iff_exists
  · intro hs; simp_all
  · intro hs; simp_all

/-- **C136, negation.** A stack of less than 8 bytes, also of none, is not refused: the creation writes outside it. -/
theorem C136_small_stack {s : State} {h a : Nat} {opts : List Opt} {c : Config} (hh : s.hnd h = none) (ha : s.obj a = none)
    (h0 : a ≠ 0) (hc : configOf opts = some c) (hs : c.shared = false) (hz : c.stackSize < 8) :
    step s (.create h a opts) = some (s, [.crash]) := by
  simp [step, hh, ha, h0, hc, Obj.new, hs, hz]

/-- The ids answered and the coroutines gone, for the witnesses. (Concerns co_co.h:36-139, co_ctx_config.h:10-34.) -/
def seen (as : List Act) : Option (List (Nat × Nat)) :=
  (runs step (State.init 4096) as).map fun (_, tr) => tr.filterMap fun
    | .id k v => some (k, v)
    | .gone k => some (k, 0)
    | _ => none

/-- The names answered. (Concerns co_co.h:36-139, co_ctx_config.h:10-34.) -/
def names (as : List Act) : Option (List (Nat × String)) :=
  (runs step (State.init 4096) as).map fun (_, tr) => tr.filterMap fun
    | .name k v => some (k, v)
    | .emptyName v => some (0, v)
    | _ => none

/-- **C136, negation.** An id may be given to a new coroutine when the old one is gone: who has kept the id of a coroutine they let go
takes the new one for the old one. -/
theorem C136_id_reused : seen [.env 0 64, .create 0 128 [], .hId 0, .release 0, .switch 0 128, .thisId 0, .finish 128, .switch 0 64,
    .destroy 128, .create 1 128 [], .hId 1] = some [(1, 128), (1, 128), (1, 0), (2, 128)] := by decide

/-- Two coroutines and the idle one, in one thread: ids inside and outside agree. -/
example : seen [.env 0 64, .thisId 0, .create 0 128 [.name "a"], .create 1 192 [.name "b"], .switch 0 192, .thisId 0, .switch 0 128,
    .move 0 2, .thisId 0, .hId 2, .hId 1] = some [(0, 64), (2, 192), (1, 128), (1, 128), (2, 192)] := by decide

/-- Their names, the default name, the name of the idle coroutine and of an empty handle. -/
example : names [.env 0 64, .thisName 0, .create 0 128 [.name "x", .name "a"], .create 1 192 [.priority 5], .switch 0 192,
    .thisName 0, .hName 0, .move 0 2, .hName 2, .hName 0] =
  some [(0, "idle"), (2, "__unknown__"), (1, "a"), (1, "a"), (0, "")] := by decide

/-- `with_stack_size(0)`. -/
example : step (State.init 4096) (.create 0 128 [.stackSize 0]) = some (State.init 4096, [.crash]) :=
  C136_small_stack rfl rfl (by decide) (c := ⟨0, "__unknown__", 99, none, false⟩) rfl rfl (by decide)

end Verif.Options
