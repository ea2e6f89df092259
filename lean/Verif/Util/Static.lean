import Verif.Base.Lts

/-! # C116: the life of the manager among the static objects

Models `co_singleton_static::instance` (include/cocpp/utils/co_singleton.h:50-55), the constructor and the destructor of `co_manager`
(source/cocpp/core/co_manager.cpp:146-151, 407-411) and the rules of C++ for static objects: one is constructed by one thread while others
that need it wait ([stmt.dcl]), and at the exit of the program they are destroyed in the reverse of the order in which their constructions
were completed ([basic.start.term]). Static objects of the program are numbered; what matters of an object is whether its constructor
and its destructor use the library. Of the classes of the library: constructor and destructor of `co` do (co_co.h:120, co.cpp:31-34); the constructor
of `co_wait_group` does not, its destructor does (co_wait_group.cpp:8-17); a container of handles is like `co_wait_group`; the others use it in neither. -/

namespace Verif.Static

/-- What a class of static objects does with the library. (Concerns co_manager.cpp:127-411, co_singleton.h:50-55.) -/
structure Prog where
  /-- Does the constructor of object `i` use the library? -/
  ctor : Nat → Bool
  /-- Does its destructor? -/
  dtor : Nat → Bool

/-- A static object: the manager (co_singleton.h:53) or one of the program. -/
inductive Obj
  | mgr
  | user (i : Nat)
  deriving DecidableEq, Repr

/-- The manager: not constructed; being constructed by `t`, with `n` parts of co_manager.cpp:148-150 done; constructed; in its destructor;
destroyed. -/
inductive Mgr
  | none
  | making (t : Tid) (n : Nat)
  | live
  | ending
  | gone
  deriving DecidableEq, Repr

/-- What the main thread does: `run`; it constructs or destroys object `i`, with a use of the library still to come or not. (co_manager.cpp:127-151.) -/
inductive Pc
  | run
  | ctor (i : Nat) (use : Bool)
  | dtor (i : Nat) (use : Bool)
  deriving DecidableEq, Repr

/-- What is seen: construction and destruction of objects; construction of the manager is complete; it is destroyed; `instance()`
returns to `t`, with a live manager or with one that was destroyed; the program begins to exit; the monitor thread sends the switch signal,
the handler being installed or not; a coroutine uses object `i`, which exists or not. (Concerns co_manager.cpp:127-411, co_singleton.h:50-55.) -/
inductive Ev
  | made (i : Nat)
  | destroyed (i : Nat)
  | built
  | over
  | got (t : Tid)
  | gotDead (t : Tid)
  | exit
  | signal (handler : Bool)
  | coUse (i : Nat) (exists_ : Bool)
  deriving DecidableEq, Repr

/-- The state: the manager, the constructed objects (last first), the main thread (0), the threads in `instance()`, whether the background threads run
(co_manager.cpp:149), whether the handlers are installed (line 150), whether there is an env (made by `current_env`, lines 169-176, on the object that `instance()`
returned), whether the program is exiting, the objects made so far. -/
structure State where
  mgr : Mgr
  done : List Obj
  pc : Pc
  calls : List Tid
  bg : Bool
  handler : Bool
  env : Bool
  exiting : Bool
  made : List Nat
  deriving DecidableEq, Repr

/-- The program starts. (Concerns co_manager.cpp:127-411, co_singleton.h:50-55.) -/
def State.init : State := ⟨.none, [], .run, [], false, false, false, false, []⟩

/-- Actions: the main thread begins to construct object `i`; completes it; a thread calls `instance()`; goes on in it; the program begins to
exit; the main thread takes the next object to destroy; it completes a destruction; the destructor of the manager is through; the monitor
thread's time has come (co_manager.cpp:127-143); a coroutine uses object `i`. -/
inductive Act
  | begin (i : Nat)
  | complete
  | call (t : Tid)
  | go (t : Tid)
  | exit
  | next
  | finish
  | over
  | tick
  | coUse (i : Nat)
  deriving DecidableEq, Repr

/-- The use in a constructor or destructor of the main thread has happened. (Concerns co_manager.cpp:127-411, co_singleton.h:50-55.) -/
def Pc.used : Pc → Pc
  | .ctor i _ => .ctor i false
  | .dtor i _ => .dtor i false
  | .run => .run

/-- One step inside `instance()` (co_singleton.h:50-55) for a thread that called it. Simplified: the constructor (co_manager.cpp:146-151) has
four steps: subscribing, starting the background threads, installing the handlers, return. -/
def goStep (s : State) (t : Tid) : Option (State × List Ev) :=
  let ret : State := { s with calls := s.calls.erase t, pc := if t = 0 then s.pc.used else s.pc }
  match s.mgr with
  | .none => some ({ s with mgr := .making t 0 }, [])
  | .making u n =>
    if u = t then
      match n with
      | 0 => some ({ s with mgr := .making t 1 }, [])
      | 1 => some ({ s with mgr := .making t 2, bg := true }, [])
      | 2 => some ({ s with mgr := .making t 3, handler := true }, [])
      | _ => some ({ s with mgr := .live, done := .mgr :: s.done }, [.built])
    else none
  | .live | .ending => some ({ ret with env := true }, [.got t])
  | .gone => some (ret, [.gotDead t])

/-- One step. With `quiet`, threads other than the main one do not call the library once the program exits, and have no call in progress then.
`pc` decides when the main thread may call; its uses in constructors and destructors are not optional. Scheduling threads use the manager through
`this` or a call of `instance()` that is not shown here; they end before the destructor of the manager is through (C92). (co_manager.cpp:127-151, 407-411; co_singleton.h:50-55.) -/
def step (p : Prog) (quiet : Bool) (s : State) : Act → Option (State × List Ev)
  | .begin i =>
    if s.pc = .run ∧ s.exiting = false ∧ 0 ∉ s.calls ∧ i ∉ s.made then some ({ s with pc := .ctor i (p.ctor i), made := i :: s.made }, []) else none
  | .complete =>
    match s.pc with
    | .ctor i false => some ({ s with pc := .run, done := .user i :: s.done }, [.made i])
    | _ => none
  | .call t =>
    if t ∈ s.calls then none
    else if t = 0 then
      match s.pc with
      | .ctor _ true | .dtor _ true => some ({ s with calls := t :: s.calls }, [])
      | .run => if s.exiting then none else some ({ s with calls := t :: s.calls }, [])
      | _ => none
    else if quiet && s.exiting then none
    else some ({ s with calls := t :: s.calls }, [])
  | .go t => if t ∈ s.calls then goStep s t else none
  | .exit =>
    if s.pc = .run ∧ s.exiting = false ∧ 0 ∉ s.calls ∧ (quiet = true → s.calls = []) then some ({ s with exiting := true }, [.exit]) else none
  | .next =>
    if s.pc = .run ∧ s.exiting = true ∧ s.mgr ≠ .ending then
      match s.done with
      | [] => none
      | .mgr :: rest => some ({ s with done := rest, mgr := .ending }, [])
      | .user i :: rest => some ({ s with done := rest, pc := .dtor i (p.dtor i) }, [])
    else none
  | .finish =>
    match s.pc with
    | .dtor i false => some ({ s with pc := .run }, [.destroyed i])
    | _ => none
  | .over => if s.mgr = .ending then some ({ s with mgr := .gone, bg := false }, [.over]) else none
  | .tick => if s.bg ∧ s.env then some (s, [.signal s.handler]) else none
  | .coUse i =>
    if (s.mgr = .live ∨ s.mgr = .ending) ∧ i ∈ s.made then some (s, [.coUse i (decide (.user i ∈ s.done))]) else none

/-! ## Constructed once, used only when complete, signals only with the handler -/

/-- Specification: the manager is complete once, over once and after that; a call returns it while it is there, and only afterwards returns
a dead one; no signal is sent before it is complete. (Concerns co_manager.cpp:127-411, co_singleton.h:50-55.) -/
inductive Q
  | before
  | there
  | after
  deriving DecidableEq, Repr

/-- The specification on traces. (Concerns co_manager.cpp:127-411, co_singleton.h:50-55.) -/
def spec : Q → Ev → Option Q
  | .before, .built => some .there
  | .there, .over => some .after
  | .there, .got _ => some .there
  | .after, .gotDead _ => some .after
  | .there, .signal true => some .there
  | q, .made _ => some q
  | q, .destroyed _ => some q
  | q, .exit => some q
  | .there, .coUse _ _ => some .there
  | _, _ => none

/-- Proof device. (Concerns co_manager.cpp:127-411, co_singleton.h:50-55.) -/
def absM : Mgr → Q
  | .none | .making _ _ => .before
  | .live | .ending => .there
  | .gone => .after

/-- Proof device. (Concerns co_manager.cpp:127-411, co_singleton.h:50-55.) -/
structure Inv1 (s : State) : Prop where
  env : s.env = true → s.mgr = .live ∨ s.mgr = .ending ∨ s.mgr = .gone
  bgm : s.bg = true → s.mgr ≠ .gone
  stage : ∀ t n, s.mgr = .making t n → (n = 3 → s.handler = true) ∧ n ≤ 3
  handler : s.mgr = .live ∨ s.mgr = .ending ∨ s.mgr = .gone → s.handler = true
  cnt : s.done.count .mgr = if s.mgr = .live then 1 else 0

theorem sim1 (p : Prog) (quiet : Bool) (s : State) (a : Act) (s' : State) (es : List Ev) (q : Q)
    (hR : Inv1 s ∧ q = absM s.mgr) (h : step p quiet s a = some (s', es)) : ∃ q', accepts spec q es = some q' ∧ (Inv1 s' ∧ q' = absM s'.mgr) := by
  obtain ⟨⟨h1, h2, h3, h4, h8⟩, rfl⟩ := hR
  obtain ⟨mgr, done, pc, calls, bg, handler, env, exiting, made⟩ := s
  simp only at h1 h2 h3 h4 h8
  cases a with
  | go t =>
    simp only [step, goStep] at h
    split at h
    · cases mgr with
      | none => cases h; refine ⟨_, rfl, ⟨?_, ?_, ?_, ?_, ?_⟩, rfl⟩ <;> simp_all
      | making u n =>
        simp only at h
        split at h
        · subst_vars
          split at h <;> cases h
          · refine ⟨_, rfl, ⟨?_, ?_, ?_, ?_, ?_⟩, rfl⟩ <;> simp_all
          · refine ⟨_, rfl, ⟨?_, ?_, ?_, ?_, ?_⟩, rfl⟩ <;> simp_all
          · refine ⟨_, rfl, ⟨?_, ?_, ?_, ?_, ?_⟩, rfl⟩ <;> simp_all
          · have h5 := (h3 u _ rfl).2
            rename_i n0 n1 n2
            have : n = 3 := by
              rcases n with _ | _ | _ | _ | n <;> simp_all
            subst this
            refine ⟨_, rfl, ⟨?_, ?_, ?_, ?_, ?_⟩, rfl⟩ <;> simp_all
        · cases h
      | live => cases h; refine ⟨_, rfl, ⟨?_, ?_, ?_, ?_, ?_⟩, rfl⟩ <;> simp_all
      | ending => cases h; refine ⟨_, rfl, ⟨?_, ?_, ?_, ?_, ?_⟩, rfl⟩ <;> simp_all
      | gone => cases h; refine ⟨_, rfl, ⟨?_, ?_, ?_, ?_, ?_⟩, rfl⟩ <;> simp_all
    · cases h
  | tick =>
    simp only [step] at h
    split at h <;> cases h
    rename_i hc
    have h5 := h1 hc.2
    have h6 := h2 hc.1
    have h7 := h4 h5
    refine ⟨absM mgr, ?_, ⟨h1, h2, h3, h4, h8⟩, rfl⟩
    rcases h5 with rfl | rfl | rfl <;> simp_all [accepts, spec, absM]
  | coUse i =>
    simp only [step] at h
    split at h <;> cases h
    rename_i hc
    refine ⟨absM mgr, ?_, ⟨h1, h2, h3, h4, h8⟩, rfl⟩
    rcases hc.1 with rfl | rfl <;> simp [accepts, spec, absM]
  | over =>
    simp only [step] at h
    split at h <;> cases h
    subst_vars
    refine ⟨_, rfl, ⟨?_, ?_, ?_, ?_, ?_⟩, rfl⟩ <;> simp_all
  | next =>
    simp only [step] at h
    split at h
    · rename_i hc
      cases done with
      | nil => cases h
      | cons o rest =>
        cases o with
        | mgr =>
          cases h
          have hl : mgr = .live := by
            rcases Decidable.em (mgr = .live) with hl | hl
            · exact hl
            · simp [hl] at h8
          subst hl
          refine ⟨_, rfl, ⟨?_, ?_, ?_, ?_, ?_⟩, rfl⟩ <;> simp_all
        | user i => cases h; exact ⟨_, rfl, ⟨h1, h2, h3, h4, by simpa using h8⟩, rfl⟩
    · cases h
  | begin i => simp only [step] at h; split at h <;> cases h; exact ⟨_, rfl, ⟨h1, h2, h3, h4, h8⟩, rfl⟩
  | complete =>
    simp only [step] at h
    split at h <;> cases h
    exact ⟨absM mgr, by cases mgr <;> rfl, ⟨h1, h2, h3, h4, by simp [h8]⟩, rfl⟩
  | call t =>
    simp only [step] at h
    repeat' split at h
    all_goals cases h
    all_goals exact ⟨_, rfl, ⟨h1, h2, h3, h4, h8⟩, rfl⟩
  | exit =>
    simp only [step] at h
    split at h <;> cases h
    exact ⟨absM mgr, by cases mgr <;> rfl, ⟨h1, h2, h3, h4, h8⟩, rfl⟩
  | finish =>
    simp only [step] at h
    split at h <;> cases h
    exact ⟨absM mgr, by cases mgr <;> rfl, ⟨h1, h2, h3, h4, h8⟩, rfl⟩

/-- **C116 on traces**: the manager is constructed once; `instance()` returns only after its construction is complete, and as long as it is not
destroyed returns it to everybody, whatever threads call at once; the switch signal is sent only when the handler is installed. -/
theorem C116_once (p : Prog) (quiet : Bool) (as : List Act) (s : State) (es : List Ev) (h : runs (step p quiet) State.init as = some (s, es)) :
    ∃ q, accepts spec .before es = some q := by
  obtain ⟨q, hq, _⟩ := runs_sim (fun s q => Inv1 s ∧ q = absM s.mgr) (sim1 p quiet) as _ _ _ .before
    ⟨⟨by simp [State.init], by simp [State.init], by simp [State.init], by simp [State.init], by simp [State.init]⟩, rfl⟩ h
  exact ⟨q, hq⟩

/-- Threads 3 and 5 call at once, 5 constructs, 3 waits (the third action is not possible in between), both get the manager; then a signal. -/
example : (runs (step ⟨fun _ => false, fun _ => false⟩ false) State.init
      [.call 3, .call 5, .go 5, .go 5, .go 5, .go 5, .go 5, .go 3, .go 5, .tick]).map Prod.snd = some [.built, .got 3, .got 5, .signal true] ∧
    runs (step ⟨fun _ => false, fun _ => false⟩ false) State.init [.call 3, .call 5, .go 5, .go 3] = none := by decide

/-- **C116, nobody waits for ever in `instance()`**: while the manager is being constructed, the thread that constructs it can go on, and its next four steps
complete it whatever has happened before. -/
theorem C116_construction_ends (p : Prog) (quiet : Bool) (as : List Act) (s : State) (es : List Ev) (h : runs (step p quiet) State.init as = some (s, es))
    (t : Tid) (n : Nat) (hm : s.mgr = .making t n) : ∃ s' es', runs (step p quiet) s (List.replicate (4 - n) (.go t)) = some (s', es') ∧ s'.mgr = .live := by
  have hI : (∀ t n, s.mgr = .making t n → t ∈ s.calls ∧ n ≤ 3) := by
    refine runs_inv (fun s => ∀ t n, s.mgr = .making t n → t ∈ s.calls ∧ n ≤ 3) ?_ as _ _ _ (by simp [State.init]) h
    intro s a s' es hI h
    cases a with
    | go u =>
      simp only [step, goStep] at h
      repeat' split at h
      all_goals cases h
      all_goals simp_all
    | _ =>
      simp only [step] at h
      repeat' split at h
      all_goals cases h
      all_goals simp_all
      all_goals (intro t n hm; have := hI t n hm; simp_all)
  obtain ⟨h1, h2⟩ := hI t n hm
  obtain ⟨mgr, done, pc, calls, bg, handler, env, exiting, made⟩ := s
  simp only at hm h1
  subst hm
  rcases n with _ | _ | _ | _ | n
  · simp [List.replicate, runs, step, goStep, h1]
  · simp [List.replicate, runs, step, goStep, h1]
  · simp [List.replicate, runs, step, goStep, h1]
  · simp [List.replicate, runs, step, goStep, h1]
  · omega

/-! ## Nobody uses a manager that is gone -/

/-- Proof device. (Concerns co_manager.cpp:127-411, co_singleton.h:50-55.) -/
structure Inv2 (p : Prog) (s : State) : Prop where
  calls : s.exiting = true → ∀ t ∈ s.calls, t = 0
  making : ∀ t n, s.mgr = .making t n → t ∈ s.calls
  late : s.mgr = .ending ∨ s.mgr = .gone → s.exiting = true
  early : ∀ t n, s.mgr = .none ∨ s.mgr = .making t n → ∀ i, .user i ∈ s.done → p.dtor i = false
  live : s.mgr = .live → ∃ l r, s.done = l ++ .mgr :: r ∧ .mgr ∉ l ∧ ∀ i, .user i ∈ r → p.dtor i = false
  ended : s.mgr = .ending ∨ s.mgr = .gone → ∀ i, .user i ∈ s.done → p.dtor i = false
  ctor : ∀ i b, s.pc = .ctor i b → s.exiting = false ∧ (p.dtor i = true → b = true ∨ s.mgr = .live)
  dtor : ∀ i, s.pc = .dtor i true → s.mgr = .live
  dtor_exit : ∀ i b, s.pc = .dtor i b → s.exiting = true
  nodup : s.calls.Nodup
  main : 0 ∈ s.calls → (∃ i, s.pc = .ctor i true) ∨ (∃ i, s.pc = .dtor i true) ∨ (s.pc = .run ∧ s.exiting = false)

theorem Inv2.step (p : Prog) (hp : ∀ i, p.dtor i = true → p.ctor i = true) (s : State) (a : Act) (s' : State) (es : List Ev) (hI : Inv2 p s)
    (h : step p true s a = some (s', es)) : Inv2 p s' ∧ ∀ t, .gotDead t ∉ es := by
  obtain ⟨c1, c2, c3, c4, c5, c6, c7, c8, c9, cn, c10⟩ := hI
  obtain ⟨mgr, done, pc, calls, bg, handler, env, exiting, made⟩ := s
  simp only at c1 c2 c3 c4 c5 c6 c7 c8 c9 cn c10
  cases a with
  | go t =>
    simp only [Static.step, goStep] at h
    split at h
    · rename_i ht
      cases mgr with
      | none =>
        cases h
        refine ⟨⟨c1, ?_, by simp, ?_, by simp, by simp, ?_, ?_, c9, cn, c10⟩, by simp⟩
        · simpa using ht
        · intro u n _; exact c4 u n (.inl rfl)
        · intro i b hb; have := c7 i b hb; simp_all
        · intro i hi; have := c8 i hi; simp_all
      | making u n =>
        simp only at h
        split at h
        · subst_vars
          have e := c4 u n (.inr rfl)
          split at h <;> cases h
          · exact ⟨⟨c1, by simp_all, by simp, fun _ _ _ => e, by simp, by simp, by simpa using c7, by simpa using c8, c9, cn, c10⟩, by simp⟩
          · exact ⟨⟨c1, by simp_all, by simp, fun _ _ _ => e, by simp, by simp, by simpa using c7, by simpa using c8, c9, cn, c10⟩, by simp⟩
          · exact ⟨⟨c1, by simp_all, by simp, fun _ _ _ => e, by simp, by simp, by simpa using c7, by simpa using c8, c9, cn, c10⟩, by simp⟩
          · exact ⟨⟨c1, by simp, by simp, by simp, fun _ => ⟨[], done, rfl, by simp, e⟩, by simp, fun i b hb => ⟨(c7 i b hb).1, by simp⟩, by simp, c9, cn, c10⟩, by simp⟩
        · cases h
      | live =>
        cases h
        refine ⟨⟨?_, by simp, by simp, by simp, fun _ => c5 rfl, by simp, ?_, by simp, ?_, cn.erase t, ?_⟩, by simp⟩
        · intro hx u hu; exact c1 hx u (List.mem_of_mem_erase hu)
        · intro i b hb
          refine ⟨?_, by simp⟩
          simp only at hb
          split at hb
          · cases pc <;> simp only [Pc.used] at hb <;> cases hb; exact (c7 i _ rfl).1
          · exact (c7 i b hb).1
        · intro i b hb
          simp only at hb
          split at hb
          · cases pc <;> simp only [Pc.used] at hb <;> cases hb; exact c9 i _ rfl
          · exact c9 i b hb
        · intro h0
          rcases Decidable.em (t = 0) with rfl | hne
          · exact absurd h0 (by simp [cn.mem_erase_iff])
          · simp only [if_neg hne]
            exact c10 (List.mem_of_mem_erase h0)
      | ending =>
        exfalso
        have hx := c3 (.inl rfl)
        have h0 := c1 hx t ht
        subst h0
        rcases c10 ht with ⟨i, hi⟩ | ⟨i, hi⟩ | hi
        · have := (c7 i _ hi).1; simp_all
        · have := c8 i hi; simp_all
        · simp_all
      | gone =>
        exfalso
        have hx := c3 (.inr rfl)
        have h0 := c1 hx t ht
        subst h0
        rcases c10 ht with ⟨i, hi⟩ | ⟨i, hi⟩ | hi
        · have := (c7 i _ hi).1; simp_all
        · have := c8 i hi; simp_all
        · simp_all
    · cases h
  | begin i =>
    simp only [Static.step] at h; split at h <;> cases h
    rename_i hc
    exact ⟨⟨c1, c2, c3, c4, c5, c6, by
      intro j b hb; cases hb
      exact ⟨hc.2.1, fun hd => .inl (hp i hd)⟩, by simp, by simp, cn, fun h0 => absurd h0 hc.2.2.1⟩, by simp⟩
  | complete =>
    simp only [Static.step] at h
    split at h <;> cases h
    rename_i i
    have c := c7 i _ rfl
    have cx := c.1
    subst cx
    have hd : mgr ≠ .live → p.dtor i = false := by
      intro hl
      cases hb : p.dtor i with
      | false => rfl
      | true => have := c.2 hb; simp_all
    refine ⟨⟨c1, c2, c3, ?_, ?_, ?_, by simp, by simp, by simp, cn, ?_⟩, by simp⟩
    · intro t n hm j hj
      rcases List.mem_cons.1 hj with hj | hj
      · cases hj; exact hd (by rcases hm with hm | hm <;> (simp only at hm; simp [hm]))
      · exact c4 t n hm j hj
    · intro hl
      obtain ⟨l, r, h1, h2, h3⟩ := c5 hl
      exact ⟨.user i :: l, r, by simp [h1], by simp [h2], h3⟩
    · intro hm; have := c3 hm; simp at this
    · intro h0
      rcases c10 h0 with ⟨j, hj⟩ | ⟨j, hj⟩ | hj
      · cases hj
      · cases hj
      · cases hj.1
  | call t =>
    simp only [Static.step] at h
    split at h
    · cases h
    · rename_i hn
      have cn' : (t :: calls).Nodup := List.nodup_cons.2 ⟨hn, cn⟩
      have c2' : ∀ u n, mgr = .making u n → u ∈ t :: calls := fun u n hm => List.mem_cons_of_mem _ (c2 u n hm)
      split at h
      · subst_vars
        have c1' : exiting = true → ∀ u ∈ 0 :: calls, u = 0 := by
          intro hx u hu
          rcases List.mem_cons.1 hu with hu | hu
          · exact hu
          · exact c1 hx u hu
        split at h
        · cases h; exact ⟨⟨c1', c2', c3, c4, c5, c6, c7, c8, c9, cn', fun _ => .inl ⟨_, rfl⟩⟩, by simp⟩
        · cases h; exact ⟨⟨c1', c2', c3, c4, c5, c6, c7, c8, c9, cn', fun _ => .inr (.inl ⟨_, rfl⟩)⟩, by simp⟩
        · split at h <;> cases h
          exact ⟨⟨c1', c2', c3, c4, c5, c6, c7, c8, c9, cn', fun _ => .inr (.inr ⟨rfl, by simp_all⟩)⟩, by simp⟩
        · cases h
      · rename_i h0
        split at h <;> cases h
        rename_i hx
        have hx : exiting = false := by simpa using hx
        refine ⟨⟨by simp [hx], c2', c3, c4, c5, c6, c7, c8, c9, cn', ?_⟩, by simp⟩
        intro hm
        rcases List.mem_cons.1 hm with hm | hm
        · exact absurd hm.symm h0
        · exact c10 hm
  | exit =>
    simp only [Static.step] at h
    split at h <;> cases h
    rename_i hc
    have hk := hc.2.2.2 trivial
    subst hk
    exact ⟨⟨by simp, c2, fun _ => rfl, c4, c5, c6, by simp [hc.1], by simp [hc.1], by simp, by simp, by simp⟩, by simp⟩
  | finish =>
    simp only [Static.step] at h
    split at h <;> cases h
    rename_i i
    refine ⟨⟨c1, c2, c3, c4, c5, c6, by simp, by simp, by simp, cn, ?_⟩, by simp⟩
    intro h0
    rcases c10 h0 with ⟨j, hj⟩ | ⟨j, hj⟩ | hj
    · cases hj
    · cases hj
    · cases hj.1
  | over =>
    simp only [Static.step] at h
    split at h <;> cases h
    subst_vars
    exact ⟨⟨c1, by simp, by simpa using c3, by simp, by simp, by simpa using c6, fun i b hb => by simpa using c7 i b hb, fun i hi => by simpa using c8 i hi, c9, cn, c10⟩, by simp⟩
  | next =>
    simp only [Static.step] at h
    split at h
    · rename_i hc
      obtain ⟨rfl, rfl, hc⟩ := hc
      have hno : 0 ∉ calls := by
        intro h0
        rcases c10 h0 with ⟨j, hj⟩ | ⟨j, hj⟩ | hj
        · cases hj
        · cases hj
        · cases hj.2
      cases done with
      | nil => cases h
      | cons o rest =>
        cases o with
        | mgr =>
          cases h
          refine ⟨⟨c1, by simp, by simp, by simp, by simp, ?_, by simp, by simp, by simp, cn, fun h0 => absurd h0 hno⟩, by simp⟩
          intro _ i hi
          cases mgr with
          | none => exact c4 0 0 (.inl rfl) i (List.mem_cons_of_mem _ hi)
          | making u n => exact c4 u n (.inr rfl) i (List.mem_cons_of_mem _ hi)
          | ending => exact c6 (.inl rfl) i (List.mem_cons_of_mem _ hi)
          | gone => exact c6 (.inr rfl) i (List.mem_cons_of_mem _ hi)
          | live =>
            obtain ⟨l, r, h1, h2, h3⟩ := c5 rfl
            cases l with
            | nil => simp at h1; subst h1; exact h3 i hi
            | cons o l => simp at h1; simp [← h1.1] at h2
        | user i =>
          cases h
          refine ⟨⟨c1, c2, c3, ?_, ?_, ?_, by simp, ?_, by simp, cn, fun h0 => absurd h0 hno⟩, by simp⟩
          · intro t n hm j hj; exact c4 t n hm j (List.mem_cons_of_mem _ hj)
          · intro hl
            obtain ⟨l, r, h1, h2, h3⟩ := c5 hl
            cases l with
            | nil => simp at h1
            | cons o l => simp at h1; exact ⟨l, r, h1.2, fun hm => h2 (List.mem_cons_of_mem _ hm), h3⟩
          · intro hm j hj; exact c6 hm j (List.mem_cons_of_mem _ hj)
          · intro j hj
            simp only [Pc.dtor.injEq] at hj
            obtain ⟨rfl, hj⟩ := hj
            cases mgr with
            | live => rfl
            | none => have := c4 0 0 (.inl rfl) i (by simp); simp_all
            | making u n => have := c4 u n (.inr rfl) i (by simp); simp_all
            | ending => have := c6 (.inl rfl) i (by simp); simp_all
            | gone => have := c6 (.inr rfl) i (by simp); simp_all
    · cases h
  | tick => simp only [Static.step] at h; split at h <;> cases h; exact ⟨⟨c1, c2, c3, c4, c5, c6, c7, c8, c9, cn, c10⟩, by simp⟩
  | coUse i => simp only [Static.step] at h; split at h <;> cases h; exact ⟨⟨c1, c2, c3, c4, c5, c6, c7, c8, c9, cn, c10⟩, by simp⟩

/-- **C116, partial**: if every static object whose destructor uses the library uses it in its constructor as well (like a handle `co`), and the
other threads leave the library alone when the program exits, nobody gets a manager that was destroyed. -/
theorem C116_alive_partial (p : Prog) (hp : ∀ i, p.dtor i = true → p.ctor i = true) (as : List Act) (s : State) (es : List Ev)
    (h : runs (step p true) State.init as = some (s, es)) (t : Tid) : .gotDead t ∉ es := by
  have h1 := runs_hist (step := step p true) (fun s tr => Inv2 p s ∧ ∀ t, .gotDead t ∉ tr) (by
    intro s a s' es tr hI hs
    have := Inv2.step p hp s a s' es hI.1 hs
    exact ⟨this.1, fun t ht => by
      rcases List.mem_append.1 ht with ht | ht
      · exact hI.2 t ht
      · exact this.2 t ht⟩) as State.init s es [] ⟨by constructor <;> simp [State.init], by simp⟩ h
  exact h1.2 t

/-- Handles only: object 1 is a handle and the first to use the library, 2 is a mutex, 3 another handle. At the exit 3, 2, 1 and then the manager. (Concerns co_manager.cpp:127-411, co_singleton.h:50-55.) -/
def handles : Prog := ⟨fun i => i ≠ 2, fun i => i ≠ 2⟩

example : (runs (step handles true) State.init ([.begin 1, .call 0, .go 0, .go 0, .go 0, .go 0, .go 0, .go 0, .complete, .begin 2, .complete, .begin 3, .call 0, .go 0, .complete,
    .exit] ++ [.next, .call 0, .go 0, .finish, .next, .finish, .next, .call 0, .go 0, .finish, .next, .over])).map Prod.snd =
    some [.built, .got 0, .made 1, .made 2, .got 0, .made 3, .exit, .got 0, .destroyed 3, .destroyed 2, .got 0, .destroyed 1, .over] := by decide

/-! ## An object older than the manager -/

/-- Proof device. (Concerns co_manager.cpp:127-411, co_singleton.h:50-55.) -/
structure Inv3 (s : State) : Prop where
  nd : s.done.Nodup
  md : ∀ i, .user i ∈ s.done → i ∈ s.made
  pcs : ∀ i b, s.pc = .ctor i b ∨ s.pc = .dtor i b → i ∈ s.made ∧ .user i ∉ s.done
  ml : .mgr ∈ s.done ↔ s.mgr = .live

theorem Pc.used_ctor {pc : Pc} {i : Nat} {b : Bool} (h : pc.used = .ctor i b) : ∃ b, pc = .ctor i b := by
  cases pc <;> simp_all [Pc.used]

theorem Pc.used_dtor {pc : Pc} {i : Nat} {b : Bool} (h : pc.used = .dtor i b) : ∃ b, pc = .dtor i b := by
  cases pc <;> simp_all [Pc.used]

/-- Proof device: the steps inside `instance()`, as far as the constructed objects are concerned. -/
theorem goStep_cases {s : State} {t : Tid} {s' : State} {es : List Ev} (h : goStep s t = some (s', es)) :
    s'.made = s.made ∧ s'.exiting = s.exiting ∧
    ((es = [] ∧ s'.done = s.done ∧ s'.pc = s.pc ∧ ∃ u n, (s.mgr = .none ∨ s.mgr = .making u n) ∧ ∃ n', s'.mgr = .making u n' ∨ s'.mgr = .making t n') ∨
     (es = [.built] ∧ s'.done = .mgr :: s.done ∧ s'.pc = s.pc ∧ (∃ u n, s.mgr = .making u n) ∧ s'.mgr = .live) ∨
     ((es = [.got t] ∧ (s.mgr = .live ∨ s.mgr = .ending) ∨ es = [.gotDead t] ∧ s.mgr = .gone) ∧ s'.done = s.done ∧ s'.mgr = s.mgr ∧
      (s'.pc = if t = 0 then s.pc.used else s.pc))) := by
  obtain ⟨mgr, done, pc, calls, bg, handler, env, exiting, made⟩ := s
  simp only [goStep] at h
  cases mgr with
  | none => cases h; simp
  | making u n =>
    simp only at h
    split at h
    · split at h <;> cases h <;> simp
    · cases h
  | live => cases h; simp
  | ending => cases h; simp
  | gone => cases h; simp

theorem Inv3.step (p : Prog) (quiet : Bool) (s : State) (a : Act) (s' : State) (es : List Ev) (hI : Inv3 s) (h : step p quiet s a = some (s', es)) : Inv3 s' := by
  obtain ⟨c1, c2, c3, c4⟩ := hI
  cases a with
  | go t =>
    simp only [Static.step] at h
    split at h
    · obtain ⟨h1, h2, h3⟩ := goStep_cases h
      rcases h3 with ⟨_, h4, h5, u, n, h6, n', h7⟩ | ⟨_, h4, h5, ⟨u, n, h6⟩, h7⟩ | ⟨_, h4, h5, h6⟩
      · refine ⟨by rw [h4]; exact c1, by rw [h4, h1]; exact c2, by rw [h4, h1, h5]; exact c3, ?_⟩
        rw [h4, c4]
        rcases h6 with h6 | h6 <;> rcases h7 with h7 | h7 <;> simp [h6, h7]
      · refine ⟨?_, ?_, ?_, ?_⟩
        · rw [h4, List.nodup_cons, c4, h6]; exact ⟨by simp, c1⟩
        · rw [h4, h1]; intro i hi; exact c2 i (by simpa using hi)
        · rw [h4, h1, h5]; intro i b hb; have := c3 i b hb; simpa using this
        · rw [h4, h7]; simp
      · refine ⟨by rw [h4]; exact c1, by rw [h4, h1]; exact c2, ?_, by rw [h4, h5]; exact c4⟩
        rw [h4, h1, h6]
        intro i b hb
        split at hb
        · rcases hb with hb | hb
          · obtain ⟨b, hb⟩ := Pc.used_ctor hb; exact c3 i b (.inl hb)
          · obtain ⟨b, hb⟩ := Pc.used_dtor hb; exact c3 i b (.inr hb)
        · exact c3 i b hb
    · cases h
  | begin i =>
    simp only [Static.step] at h
    split at h <;> cases h
    rename_i hc
    refine ⟨c1, fun j hj => List.mem_cons_of_mem _ (c2 j hj), ?_, c4⟩
    intro j b hb
    simp at hb
    obtain ⟨rfl, _⟩ := hb
    exact ⟨by simp, fun hm => hc.2.2.2 (c2 _ hm)⟩
  | complete =>
    simp only [Static.step] at h
    split at h <;> cases h
    rename_i i hpc
    have := c3 i false (.inl hpc)
    refine ⟨List.nodup_cons.2 ⟨this.2, c1⟩, ?_, by simp, by simp [c4]⟩
    intro j hj
    rcases List.mem_cons.1 hj with hj | hj
    · cases hj; exact this.1
    · exact c2 j hj
  | next =>
    simp only [Static.step] at h
    split at h
    · rename_i hc
      split at h
      · cases h
      · rename_i rest hd
        cases h
        rw [hd] at c1 c2 c4
        refine ⟨(List.nodup_cons.1 c1).2, fun j hj => c2 j (List.mem_cons_of_mem _ hj), by simp [hc.1], ?_⟩
        simpa using (List.nodup_cons.1 c1).1
      · rename_i i rest hd
        cases h
        rw [hd] at c1 c2 c4
        refine ⟨(List.nodup_cons.1 c1).2, fun j hj => c2 j (List.mem_cons_of_mem _ hj), ?_, by simpa using c4⟩
        intro j b hb
        simp at hb
        obtain ⟨rfl, _⟩ := hb
        exact ⟨c2 _ (by simp), (List.nodup_cons.1 c1).1⟩
    · cases h
  | finish =>
    simp only [Static.step] at h
    split at h <;> cases h
    exact ⟨c1, c2, by simp, c4⟩
  | over =>
    simp only [Static.step] at h
    split at h <;> cases h
    rename_i hm
    exact ⟨c1, c2, c3, by simp [c4, hm]⟩
  | exit => simp only [Static.step] at h; split at h <;> cases h; exact ⟨c1, c2, c3, c4⟩
  | tick => simp only [Static.step] at h; split at h <;> cases h; exact ⟨c1, c2, c3, c4⟩
  | coUse i => simp only [Static.step] at h; split at h <;> cases h; exact ⟨c1, c2, c3, c4⟩
  | call t =>
    simp only [Static.step] at h
    repeat' split at h
    all_goals cases h
    all_goals exact ⟨c1, c2, c3, c4⟩

theorem inv3_init : Inv3 State.init := by constructor <;> simp [State.init]

/-- Proof device: object `i` is older than the manager. (Concerns co_manager.cpp:127-411, co_singleton.h:50-55.) -/
structure Older (i : Nat) (s : State) : Prop where
  inv : Inv3 s
  built : s.mgr = .live ∨ s.mgr = .ending ∨ s.mgr = .gone
  live : s.mgr = .live → ∃ l r, s.done = l ++ .mgr :: r ∧ .user i ∈ r
  ending : s.mgr = .ending → .user i ∈ s.done

theorem Older.mem {i : Nat} {s : State} (h : Older i s) (hm : s.mgr = .live ∨ s.mgr = .ending) : .user i ∈ s.done := by
  rcases hm with hm | hm
  · obtain ⟨l, r, h1, h2⟩ := h.live hm; simp [h1, h2]
  · exact h.ending hm

/-- Proof device: what the trace up to the construction of the manager says about the state. (Concerns co_manager.cpp:127-411, co_singleton.h:50-55.) -/
def Hist (s : State) (tr : List Ev) : Prop :=
  Inv3 s ∧ (s.exiting = true → .exit ∈ tr) ∧ (.exit ∉ tr → ∀ i, .made i ∈ tr → .user i ∈ s.done) ∧
    (.exit ∉ tr → ∀ e, tr = e ++ [.built] → ∃ r, s.done = .mgr :: r ∧ s.mgr = .live ∧ ∀ i, .made i ∈ e → .user i ∈ r)

theorem Hist.step (p : Prog) (quiet : Bool) (s : State) (a : Act) (s' : State) (es tr : List Ev) (hI : Hist s tr) (h : step p quiet s a = some (s', es)) :
    Hist s' (tr ++ es) := by
  obtain ⟨c1, c2, c3, c4⟩ := hI
  refine ⟨c1.step p quiet s a s' es h, ?_⟩
  cases a with
  | go t =>
    simp only [Static.step] at h
    split at h
    · obtain ⟨h1, h2, h3⟩ := goStep_cases h
      rcases h3 with ⟨rfl, h4, h5, u, n, h6, n', h7⟩ | ⟨rfl, h4, h5, ⟨u, n, h6⟩, h7⟩ | ⟨h8, h4, h5, h6⟩
      · refine ⟨by simpa [h2] using c2, by simpa [h4] using c3, ?_⟩
        simp only [List.append_nil]
        intro hx e he
        obtain ⟨r, _, hl, _⟩ := c4 hx e he
        rcases h6 with h6 | h6 <;> simp [h6] at hl
      · refine ⟨by simpa [h2] using c2, by simpa [h4] using c3, ?_⟩
        intro hx e he
        obtain ⟨rfl, _⟩ := List.append_inj' he rfl
        exact ⟨_, h4, h7, c3 (by simpa using hx)⟩
      · have : es = [.got t] ∨ es = [.gotDead t] := by rcases h8 with h8 | h8 <;> simp [h8.1]
        rcases this with rfl | rfl
        all_goals
          refine ⟨by simpa [h2] using c2, by simpa [h4] using c3, ?_⟩
          intro hx e he
          have := (List.append_inj' he rfl).2
          simp at this
    · cases h
  | call t =>
    simp only [Static.step] at h
    repeat' split at h
    all_goals cases h
    all_goals simpa using ⟨c2, c3, c4⟩
  | begin i =>
    simp only [Static.step] at h
    split at h <;> cases h
    simpa using ⟨c2, c3, c4⟩
  | complete =>
    simp only [Static.step] at h
    split at h <;> cases h
    refine ⟨by simpa using c2, ?_, ?_⟩
    · intro hx j hj
      simp at hx hj
      rcases hj with hj | rfl
      · exact List.mem_cons_of_mem _ (c3 hx j hj)
      · simp
    · intro hx e he
      have := (List.append_inj' he rfl).2
      simp at this
  | exit =>
    simp only [Static.step] at h
    split at h <;> cases h
    simp
  | next =>
    simp only [Static.step] at h
    split at h
    · rename_i hc
      have hx := c2 hc.2.1
      split at h <;> cases h <;> simp [hx]
    · cases h
  | finish =>
    simp only [Static.step] at h
    split at h <;> cases h
    refine ⟨by simpa using c2, by simpa using c3, ?_⟩
    intro hx e he
    have := (List.append_inj' he rfl).2
    simp at this
  | over =>
    simp only [Static.step] at h
    split at h <;> cases h
    refine ⟨by simpa using c2, by simpa using c3, ?_⟩
    intro hx e he
    have := (List.append_inj' he rfl).2
    simp at this
  | tick =>
    simp only [Static.step] at h
    split at h <;> cases h
    refine ⟨by simpa using c2, by simpa using c3, ?_⟩
    intro hx e he
    have := (List.append_inj' he rfl).2
    simp at this
  | coUse i =>
    simp only [Static.step] at h
    split at h <;> cases h
    refine ⟨by simpa using c2, by simpa using c3, ?_⟩
    intro hx e he
    have := (List.append_inj' he rfl).2
    simp at this

theorem older_of (p : Prog) (quiet : Bool) (as : List Act) (s : State) (es : List Ev) (h : runs (step p quiet) State.init as = some (s, es ++ [.built])) (i : Nat)
    (hi : .made i ∈ es) (hx : .exit ∉ es) : Older i s ∧ s.mgr = .live := by
  have h0 : Hist State.init [] := ⟨inv3_init, by simp [State.init], by simp, by simp⟩
  obtain ⟨h1, _, _, h4⟩ := runs_hist Hist (fun s a s' es tr hI hs => Hist.step p quiet s a s' es tr hI hs) as State.init s (es ++ [.built]) [] h0 h
  obtain ⟨r, h5, h6, h7⟩ := h4 (by simpa using hx) es (by simp)
  exact ⟨⟨h1, .inl h6, fun _ => ⟨[], r, h5, h7 i hi⟩, by simp [h6]⟩, h6⟩

theorem Older.step (p : Prog) (quiet : Bool) (i : Nat) (s : State) (a : Act) (s' : State) (es : List Ev) (hI : Older i s) (h : step p quiet s a = some (s', es)) :
    Older i s' ∧ .coUse i false ∉ es := by
  have hm := hI.mem
  obtain ⟨c1, c2, c3, c4⟩ := hI
  have c1' := c1.step p quiet s a s' es h
  cases a with
  | go t =>
    simp only [Static.step] at h
    split at h
    · obtain ⟨h1, h2, h3⟩ := goStep_cases h
      rcases h3 with ⟨rfl, h4, h5, u, n, h6, n', h7⟩ | ⟨rfl, h4, h5, ⟨u, n, h6⟩, h7⟩ | ⟨h8, h4, h5, h6⟩
      · rcases h6 with h6 | h6 <;> simp [h6] at c2
      · simp [h6] at c2
      · refine ⟨⟨c1', by rw [h5]; exact c2, by rw [h5, h4]; exact c3, by rw [h5, h4]; exact c4⟩, ?_⟩
        rcases h8 with h8 | h8 <;> simp [h8.1]
    · cases h
  | next =>
    simp only [Static.step] at h
    split at h
    · rename_i hc
      split at h
      · cases h
      · rename_i rest hd
        have hl : s.mgr = .live := c1.ml.1 (by simp [hd])
        cases h
        refine ⟨⟨c1', by simp, by simp, ?_⟩, by simp⟩
        intro _
        simpa [hd] using hm (.inl hl)
      · rename_i j rest hd
        cases h
        refine ⟨⟨c1', c2, ?_, by simp [hc.2.2]⟩, by simp⟩
        intro hl
        obtain ⟨l, r, h1, h2⟩ := c3 hl
        rw [hd] at h1
        cases l with
        | nil => simp at h1
        | cons o l => simp at h1; exact ⟨l, r, h1.2, h2⟩
    · cases h
  | complete =>
    simp only [Static.step] at h
    split at h <;> cases h
    refine ⟨⟨c1', c2, ?_, fun he => List.mem_cons_of_mem _ (c4 he)⟩, by simp⟩
    intro hl
    obtain ⟨l, r, h1, h2⟩ := c3 hl
    exact ⟨_ :: l, r, by rw [h1]; rfl, h2⟩
  | over =>
    simp only [Static.step] at h
    split at h <;> cases h
    exact ⟨⟨c1', by simp, by simp, by simp⟩, by simp⟩
  | coUse j =>
    simp only [Static.step] at h
    split at h <;> cases h
    rename_i hc
    refine ⟨⟨c1', c2, c3, c4⟩, ?_⟩
    have := hm hc.1
    simp
    rintro rfl; exact this
  | call t =>
    simp only [Static.step] at h
    repeat' split at h
    all_goals cases h
    all_goals exact ⟨⟨c1', c2, c3, c4⟩, by simp⟩
  | begin j => simp only [Static.step] at h; split at h <;> cases h; exact ⟨⟨c1', c2, c3, c4⟩, by simp⟩
  | exit => simp only [Static.step] at h; split at h <;> cases h; exact ⟨⟨c1', c2, c3, c4⟩, by simp⟩
  | finish => simp only [Static.step] at h; split at h <;> cases h; exact ⟨⟨c1', c2, c3, c4⟩, by simp⟩
  | tick => simp only [Static.step] at h; split at h <;> cases h; exact ⟨⟨c1', c2, c3, c4⟩, by simp⟩

/-- **C116, an object whose construction was complete before that of the manager**: coroutines find it alive as long as there are any. -/
theorem C116_older_serves_coroutines (p : Prog) (quiet : Bool) (as : List Act) (s : State) (es : List Ev)
    (h : runs (step p quiet) State.init as = some (s, es ++ [.built])) (i : Nat) (hi : .made i ∈ es) (hx : .exit ∉ es)
    (as' : List Act) (s' : State) (es' : List Ev) (h' : runs (step p quiet) s as' = some (s', es')) : .coUse i false ∉ es' := by
  have h0 := (older_of p quiet as s es h i hi hx).1
  have := runs_hist (step := step p quiet) (fun s tr => Older i s ∧ .coUse i false ∉ tr) (by
    intro s a s' es tr hI hs
    have := Older.step p quiet i s a s' es hI.1 hs
    exact ⟨this.1, by simp [hI.2, this.2]⟩) as' s s' es' [] ⟨h0, by simp⟩ h'
  simpa using this.2

/-- **C116, negation for such an object with a destructor that uses the library** (a global `co_wait_group`, a global container of handles): whenever it is
destroyed, its destructor has been given a manager that was destroyed. -/
theorem C116_older_uses_dead (p : Prog) (quiet : Bool) (as : List Act) (s : State) (es : List Ev)
    (h : runs (step p quiet) State.init as = some (s, es ++ [.built])) (i : Nat) (hi : .made i ∈ es) (hx : .exit ∉ es) (hd : p.dtor i = true)
    (as' : List Act) (s' : State) (es' : List Ev) (h' : runs (step p quiet) s as' = some (s', es')) (hg : .destroyed i ∈ es') : .gotDead 0 ∈ es' := by
  obtain ⟨h0, hl⟩ := older_of p quiet as s es h i hi hx
  have := runs_hist (step := step p quiet) (fun s tr => Older i s ∧ (s.mgr = .gone → .user i ∈ s.done ∨ s.pc = .dtor i true ∨ .gotDead 0 ∈ tr) ∧
      (.destroyed i ∈ tr → .gotDead 0 ∈ tr)) (by
    intro s a s' es tr ⟨hO, hK, hT⟩ hs
    have hO' := (Older.step p quiet i s a s' es hO hs).1
    have hm := hO.mem
    refine ⟨hO', ?_⟩
    cases a with
    | go t =>
      simp only [step] at hs
      split at hs
      · obtain ⟨h1, h2, h3⟩ := goStep_cases hs
        have hb := hO.built
        rcases h3 with ⟨rfl, h4, h5, u, n, h6, n', h7⟩ | ⟨rfl, h4, h5, ⟨u, n, h6⟩, h7⟩ | ⟨h8, h4, h5, h6⟩
        · rcases h6 with h6 | h6 <;> simp [h6] at hb
        · simp [h6] at hb
        · rcases h8 with ⟨rfl, h8⟩ | ⟨rfl, h8⟩
          · refine ⟨?_, by simpa using hT⟩
            rw [h5]; intro hgn; rcases h8 with h8 | h8 <;> simp [h8] at hgn
          · rcases Decidable.em (t = 0) with rfl | hne
            · simp
            · refine ⟨?_, fun hx => List.mem_append_left _ (hT (by simpa using hx))⟩
              rw [h5, h4, h6, if_neg hne]
              intro hgn
              rcases hK hgn with hk | hk | hk
              · exact .inl hk
              · exact .inr (.inl hk)
              · exact .inr (.inr (List.mem_append_left _ hk))
      · cases hs
    | next =>
      simp only [step] at hs
      split at hs
      · rename_i hc
        split at hs
        · cases hs
        · cases hs; simpa using hT
        · rename_i j rest hdn
          cases hs
          refine ⟨?_, by simpa using hT⟩
          intro hgn
          rcases hK hgn with hk | hk | hk
          · simp [hdn] at hk
            rcases hk with rfl | hk
            · exact .inr (.inl (by simp [hd]))
            · exact .inl hk
          · simp [hc.1] at hk
          · exact .inr (.inr (by simpa using hk))
      · cases hs
    | complete =>
      simp only [step] at hs
      split at hs <;> cases hs
      rename_i j hpc
      refine ⟨?_, by simpa using hT⟩
      intro hgn
      rcases hK hgn with hk | hk | hk
      · exact .inl (List.mem_cons_of_mem _ hk)
      · simp [hpc] at hk
      · exact .inr (.inr (by simpa using hk))
    | finish =>
      simp only [step] at hs
      split at hs <;> cases hs
      rename_i j hpc
      have key : j = i → .gotDead 0 ∈ tr := by
        rintro rfl
        have hn := (hO.inv.pcs j false (.inr hpc)).2
        rcases hO.built with hb | hb | hb
        · exact absurd (hm (.inl hb)) hn
        · exact absurd (hm (.inr hb)) hn
        · rcases hK hb with hk | hk | hk
          · exact absurd hk hn
          · simp [hpc] at hk
          · exact hk
      refine ⟨?_, ?_⟩
      · intro hgn
        rcases hK hgn with hk | hk | hk
        · exact .inl hk
        · simp [hpc] at hk
        · exact .inr (.inr (by simpa using hk))
      · intro hx
        simp at hx
        rcases hx with hx | hx
        · exact List.mem_append_left _ (hT hx)
        · exact List.mem_append_left _ (key hx.symm)
    | over =>
      simp only [step] at hs
      split at hs <;> cases hs
      rename_i hc
      exact ⟨fun _ => .inl (hm (.inr hc)), by simpa using hT⟩
    | begin j =>
      simp only [step] at hs
      split at hs <;> cases hs
      rename_i hc
      refine ⟨?_, by simpa using hT⟩
      intro hgn
      rcases hK hgn with hk | hk | hk
      · exact .inl hk
      · simp [hc.1] at hk
      · exact .inr (.inr (by simpa using hk))
    | call t =>
      simp only [step] at hs
      repeat' split at hs
      all_goals cases hs
      all_goals exact ⟨by simpa using hK, by simpa using hT⟩
    | exit => simp only [step] at hs; split at hs <;> cases hs; exact ⟨by simpa using hK, by simpa using hT⟩
    | tick => simp only [step] at hs; split at hs <;> cases hs; exact ⟨by simpa using hK, by simpa using hT⟩
    | coUse j => simp only [step] at hs; split at hs <;> cases hs; exact ⟨by simpa using hK, by simpa using hT⟩) as' s s' es' []
    ⟨h0, by simp [hl], by simp⟩ h'
  simpa using this.2.2 (by simpa using hg)

/-- A global wait group 1; the main program uses the library, a coroutine the wait group; the exit. (Concerns co_manager.cpp:127-411, co_singleton.h:50-55.) -/
def waitGroups : Prog := ⟨fun _ => false, fun _ => true⟩

example : (runs (step waitGroups true) State.init ([.begin 1, .complete, .call 0, .go 0, .go 0, .go 0, .go 0, .go 0] ++
      [.go 0, .coUse 1, .exit, .next, .coUse 1, .over, .next, .call 0, .go 0, .finish])).map Prod.snd =
    some [.made 1, .built, .got 0, .coUse 1 true, .exit, .coUse 1 true, .over, .gotDead 0, .destroyed 1] := by decide

/-- **C116, negation**: even in a program that makes no use of the library. Two global wait groups (empty containers of handles do not matter,
their destructors use nothing): the destructor of the second constructs the manager, which is destroyed next, before the first. -/
theorem C116_unused_library : ∃ as s, runs (step waitGroups true) State.init as =
    some (s, [.made 1, .made 2, .exit, .built, .got 0, .destroyed 2, .over, .gotDead 0, .destroyed 1]) :=
  ⟨[.begin 1, .complete, .begin 2, .complete, .exit, .next, .call 0, .go 0, .go 0, .go 0, .go 0, .go 0, .go 0, .finish, .next, .over, .next, .call 0, .go 0, .finish],
    _, rfl⟩

/-- **C116, negation for objects younger than the manager**: any object whose constructor and destructor do not use the library, constructed after the
manager, is destroyed while coroutines still run, and one of them uses it. -/
theorem C116_younger_used_when_gone (p : Prog) (i : Nat) (hc : p.ctor i = false) (hd : p.dtor i = false) : ∃ as s, runs (step p true) State.init as =
    some (s, [.built, .got 0, .made i, .coUse i true, .exit, .destroyed i, .coUse i false]) :=
  ⟨[.call 0, .go 0, .go 0, .go 0, .go 0, .go 0, .go 0, .begin i, .complete, .coUse i, .exit, .next, .finish, .coUse i], _, by
    simp [runs, step, goStep, State.init, Pc.used, hc, hd]; rfl⟩

/-- **C116, negation without the assumption on other threads**: a thread of the program that is not waited for gets a dead manager. -/
theorem C116_other_thread : ∃ as s, runs (step handles false) State.init as = some (s, [.built, .got 0, .made 1, .exit, .got 0, .destroyed 1, .over, .gotDead 7]) :=
  ⟨[.begin 1, .call 0, .go 0, .go 0, .go 0, .go 0, .go 0, .go 0, .complete, .exit, .next, .call 0, .go 0, .finish, .next, .over, .call 7, .go 7], _, rfl⟩

end Verif.Static
