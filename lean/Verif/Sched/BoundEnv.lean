import Verif.Sched.EnvLife

/-!
# Coroutines bound to an env (C135)

The option `with_bind_env` (co_ctx_config.h:15, 33) puts a coroutine on an env of the user's choice
(co_manager.cpp:421-441). The machine is that of `Verif.Sched.EnvLife`: creators, envs, monitor. An env the user created with
`create_env(true)` is the one kind of env the library never stops by itself.
-/

namespace Verif.EnvLife

attribute [local grind =] State.put State.at State.add Obj.setSt Obj.fresh Obj.ofThread MPc.todo CPc.target mem_ins MPc.cands

/-- The tactic of `Verif.Sched.EnvLife`: take a step apart. -/
local macro "crunch" hs:ident : tactic => `(tactic| (
  simp only [step] at $hs:ident
  repeat' split at $hs:ident
  all_goals first | (simp only [reduceCtorEq] at $hs:ident; done) | skip
  all_goals simp only [Option.some.injEq, Prod.mk.injEq] at $hs:ident
  all_goals (have e1 := And.left $hs:ident; have e2 := And.right $hs:ident; clear $hs:ident; subst e1; subst e2)))

/-! ## An env that is kept -/

/-- Env `e` lives, has a thread in its loop and is marked `CO_ENV_FLAG_DONT_AUTO_DESTROY` (co_env.cpp:26-44,
co_manager.cpp:87-103). -/
def Alive (e : Nat) (s : State) : Prop :=
  ∃ o, s.env e = some o ∧ o.dontDestroy = true ∧ o.noThread = false ∧ (o.st = .idle ∨ o.st = .busy) ∧ o.phase = .loop

/-- What must not happen to a coroutine bound to `e`: refused, assertion failed, deleted env used, destroyed unfinished;
and the env itself is not stopped (the events of `Verif.Sched.EnvLife`; co_env.cpp:61-64, 83, 413). -/
def Ev.bad (e : Nat) : Ev → Prop
  | .rejected _ e' => e' = e
  | .abort _ e' => e' = e
  | .ub _ e' => e' = e
  | .lost _ e' => e' = e
  | .stopped e' => e' = e
  | _ => False

attribute [local grind =] Ev.bad

theorem alive_step {s s' : State} {a : Act} {es : List Ev} {e : Nat} (hI : Inv s) (hO : Owned s) (h : Alive e s)
    (hs : step s a = some (s', es)) (hu : Ev.userStop e ∉ es) : Alive e s' ∧ ∀ v ∈ es, ¬ v.bad e := by
  obtain ⟨o, h1, h2, h3, h4, h5⟩ := h
  have hb := hI.bound e o h1
  have hc : e ∉ s.mon.cands := fun hc => by have := hO e hc o h1; simp_all
  refine ⟨?_, ?_⟩
  · cases a <;> crunch hs <;> dsimp only [Alive, State.put, State.at, State.add] <;> grind
  · cases a <;> crunch hs <;> intro v hv <;> grind

theorem alive_runs {n : Nat} {e : Nat} {as0 as1 : List Act} {s0 s : State} {tr0 tr : List Ev}
    (h0 : runs step (State.init n) as0 = some (s0, tr0)) (hl : Alive e s0) (h1 : runs step s0 as1 = some (s, tr))
    (hu : Ev.userStop e ∉ tr) : Inv s ∧ Alive e s ∧ ∀ v ∈ tr, ¬ v.bad e := by
  have := runs_hist (step := step)
    (fun s tr => Inv s ∧ Owned s ∧ (Ev.userStop e ∉ tr → Alive e s ∧ ∀ v ∈ tr, ¬ v.bad e))
    (by
      intro s a s' es tr ⟨g1, g2, g3⟩ hs
      refine ⟨inv_step g1 hs, owned_step g2 hs, fun hu => ?_⟩
      simp only [List.mem_append, not_or] at hu
      obtain ⟨k1, k2⟩ := g3 hu.1
      obtain ⟨k3, k4⟩ := alive_step g1 g2 k1 hs hu.2
      exact ⟨k3, fun v hv => (List.mem_append.mp hv).elim (k2 v) (k4 v)⟩)
    as1 s0 s tr [] ⟨inv_runs h0, owned_runs h0, fun _ => ⟨hl, by simp⟩⟩ h1
  exact ⟨this.1, this.2.2 (by simpa using hu)⟩

/-- Before an env exists nobody stops it. -/
theorem stop_known {n : Nat} {as : List Act} {s : State} {tr : List Ev} (h : runs step (State.init n) as = some (s, tr))
    (e : Nat) (he : Ev.stopped e ∈ tr ∨ Ev.userStop e ∈ tr) : e < s.next := by
  have := runs_hist (step := step) (fun s tr => Inv s ∧ ∀ e, Ev.stopped e ∈ tr ∨ Ev.userStop e ∈ tr → e < s.next)
    (by
      intro s a s' es tr ⟨g1, g2⟩ hs
      refine ⟨inv_step g1 hs, ?_⟩
      have hb := g1.bound
      cases a <;> crunch hs <;> intro e he <;> have g2' := g2 e <;> (try dsimp only [State.put, State.at, State.add]) <;> grind)
    as _ s tr [] ⟨inv_init n, by simp⟩ h
  exact this.2 e (by simpa using he)

/-- **C135.** Let env `e` be made by `create_env(true)` at any time, and let nobody call `stop` on it. Then, whatever else
happens - the monitor runs, the limits change, other envs come and go - the library does not stop `e`, no coroutine bound to
it is refused, none fails an assertion or uses a deleted env, none is destroyed unfinished; and a thread about to offer it a
coroutine can do so at once and is accepted. -/
theorem C135_own_env_accepts {n p : Nat} {as0 as1 : List Act} {s0 s1 s : State} {tr0 es tr : List Ev}
    (h0 : runs step (State.init n) as0 = some (s0, tr0)) (hc : step s0 (.create p true) = some (s1, es))
    (h1 : runs step s1 as1 = some (s, tr)) (hu : Ev.userStop s0.next ∉ tr) :
    es = [.made s0.next] ∧ (∀ v ∈ tr, ¬ v.bad s0.next) ∧
    ∀ t c, s.pc t = .picked c s0.next →
      ∃ s', runs step s [.check t, .assert t, .push t, .busy t] = some (s', [.accepted c s0.next]) := by
  have hh : runs step (State.init n) (as0 ++ [.create p true]) = some (s1, tr0 ++ es) := by
    exact runs_append h0 (by simp [runs, hc])
  have hl : Alive s0.next s1 ∧ es = [.made s0.next] := by
    crunch hc
    refine ⟨?_, rfl⟩
    simp [Alive, State.add, State.put, Obj.fresh]
  obtain ⟨g1, ⟨o, k1, k2, k3, k4, k5⟩, g3⟩ := alive_runs hh hl.1 h1 hu
  refine ⟨hl.2, g3, fun t c ht => ?_⟩
  have hne : ¬ (o.st = .created ∨ o.st = .destroying) := by rcases k4 with h | h <;> simp [h]
  simp [runs, step, ht, k1, hne, State.at, State.put]

/-! ## It runs there and nowhere else -/

/-- Where coroutines are, against where they were sent. (Concerns co_env.cpp:26-427, co_manager.cpp:87-441.) -/
structure Placed (s : State) (tr : List Ev) : Prop where
  used : ∀ c e, Ev.chose c e ∈ tr → c ∈ s.used
  once : ∀ c e e', Ev.chose c e ∈ tr → Ev.chose c e' ∈ tr → e = e'
  pc : ∀ t c e, (s.pc t = .picked c e ∨ s.pc t = .checked c e ∨ s.pc t = .asserted c e) → Ev.chose c e ∈ tr
  queue : ∀ c e o, s.env e = some o → c ∈ o.queue → Ev.chose c e ∈ tr
  ran : ∀ c e, Ev.ran c e ∈ tr → Ev.chose c e ∈ tr
  acc : ∀ c e, Ev.accepted c e ∈ tr → Ev.chose c e ∈ tr

theorem placed_step {s s' : State} {a : Act} {es tr : List Ev} (h : Placed s tr) (hs : step s a = some (s', es)) :
    Placed s' (tr ++ es) := by
  obtain ⟨h1, h2, h3, h4, h5, h6⟩ := h
  cases a <;> crunch hs <;> constructor <;> (try dsimp only [State.put, State.at, State.add]) <;>
    first | grind | (grind [List.mem_of_mem_erase])

theorem placed_runs {n : Nat} {as : List Act} {s : State} {tr : List Ev} (h : runs step (State.init n) as = some (s, tr)) :
    Placed s tr := by
  have := runs_hist Placed (fun s a s' es tr h hs => placed_step h hs) as (State.init n) s tr []
    (by constructor <;> simp [State.init]) h
  simpa using this

/-- **C135, the place.** In every execution a coroutine runs on the env it was bound to (or that was chosen for it), and on no
other. -/
theorem C135_runs_only_there {n : Nat} {as : List Act} {s : State} {tr : List Ev} {c e e' : Nat}
    (h : runs step (State.init n) as = some (s, tr)) (hc : Ev.chose c e ∈ tr) (hr : Ev.ran c e' ∈ tr) : e' = e :=
  (placed_runs h).once c e' e ((placed_runs h).ran c e' hr) hc

/-- **C135, it gets its turn.** A coroutine accepted by an env made by `create_env(true)` that nobody stops has run there, or
the env's thread can pick it now. (Which of the ready ones is picked, and that none starves, is C43-C46.) -/
theorem C135_accepted_runs {n p c : Nat} {as0 as1 : List Act} {s0 s1 s : State} {tr0 es tr : List Ev}
    (h0 : runs step (State.init n) as0 = some (s0, tr0)) (hc : step s0 (.create p true) = some (s1, es))
    (h1 : runs step s1 as1 = some (s, tr)) (hu : Ev.userStop s0.next ∉ tr) (ha : Ev.accepted c s0.next ∈ tr) :
    Ev.ran c s0.next ∈ tr0 ++ (es ++ tr) ∨
      ∃ s' es', step s (.sched s0.next c) = some (s', es') ∧ Ev.ran c s0.next ∈ es' := by
  have hh : runs step (State.init n) (as0 ++ .create p true :: as1) = some (s, tr0 ++ (es ++ tr)) := by
    exact runs_append h0 (by simp [runs, hc, h1])
  have hall := C135_own_env_accepts h0 hc h1 hu
  have hk := stop_known h0 s0.next
  have ha' : Ev.accepted c s0.next ∈ tr0 ++ (es ++ tr) := by simp [ha]
  have hs : Ev.stopped s0.next ∉ tr0 ++ (es ++ tr) := by
    intro hm
    rw [hall.1] at hm
    simp only [List.mem_append, List.mem_singleton, reduceCtorEq, false_or] at hm
    rcases hm with hm | hm
    · exact absurd (hk (.inl hm)) (by omega)
    · exact hall.2.1 _ hm rfl
  have hu' : Ev.userStop s0.next ∉ tr0 ++ (es ++ tr) := by
    intro hm
    rw [hall.1] at hm
    simp only [List.mem_append, List.mem_singleton, reduceCtorEq, false_or] at hm
    rcases hm with hm | hm
    · exact absurd (hk (.inr hm)) (by omega)
    · exact hu hm
  rcases C64_accepted_runs_partial hh ha' hs hu' with ⟨e', he⟩ | h
  · left
    rwa [C135_runs_only_there hh ((placed_runs hh).acc _ _ ha') he] at he
  · exact .inr h

/-- Two envs of the user's among surplus ones: the monitor stops the surplus env 1, the coroutines bound to env 0 run there. -/
example : (after 1 [.setMax 1, .create 0 true, .create 1 false, .create 2 true, .bind 0 10 0, .trim, .mon, .mon, .mon, .mon,
    .check 0, .assert 0, .mon, .push 0, .mon, .busy 0, .bind 0 11 0, .sched 0 10, .check 0, .leave 1, .assert 0, .push 0, .busy 0,
    .finish 0 10, .sched 0 11] 3).map (·.1) =
  some [.made 0, .made 1, .made 2, .chose 10 0, .stopped 1, .accepted 10 0, .chose 11 0, .switched 0, .ran 10 0,
    .accepted 11 0, .ended 10 0, .switched 0, .ran 11 0] := by decide

/-! ## Other envs -/

/-- **C135, negation for an env made by `create_env(false)`.** The monitor stops it as surplus, and the coroutine bound to it
is refused; when the env has been deleted meanwhile, the deleted env is used. -/
theorem C135_other_env_refuses :
    (after 1 [.setMax 1, .create 0 false, .create 1 false, .trim, .mon, .mon, .mon, .mon, .mon, .bind 0 10 0, .check 0] 1).map (·.1)
      = some [.made 0, .made 1, .stopped 0, .chose 10 0, .rejected 10 0] ∧
    (after 1 [.setMax 1, .create 0 false, .create 1 false, .trim, .mon, .mon, .mon, .mon, .mon, .leave 0, .removeAll 0,
      .expire 0, .free 0, .bind 0 10 0, .check 0] 1).map (·.1)
      = some [.made 0, .made 1, .stopped 0, .chose 10 0, .ub 10 0] := by decide

/-- The env `e` of a thread that has not called `schedule_in_this_thread` (co_env.cpp:45-50, 420-427). -/
def Plain (e : Nat) (s : State) : Prop := ∃ o, s.env e = some o ∧ o.noThread = true ∧ o.phase = .loop

theorem plain_step {s s' : State} {a : Act} {es : List Ev} {e : Nat} (hI : Inv s) (hO : Owned s) (h : Plain e s)
    (hs : step s a = some (s', es)) (hu : a ≠ .startHere e) : Plain e s' ∧ ∀ c, Ev.accepted c e ∉ es := by
  obtain ⟨o, h1, h2, h3⟩ := h
  have hb := hI.bound e o h1
  have ht := fun t (ht : (s.pc t).target = some e) => hI.started t e o ht h1
  have hc : e ∉ s.mon.cands := fun hc => by have := hO e hc o h1; simp_all
  have hcr := hI.created e o h1 h2
  refine ⟨?_, fun c => ?_⟩
  · cases a <;> crunch hs <;> dsimp only [Plain, State.put, State.at, State.add] <;> grind
  · cases a <;> crunch hs <;> grind

/-- **C135, negation for the env of a thread.** Until the thread calls `schedule_in_this_thread`, its env accepts no coroutine,
whatever else happens; each thread that offers one is refused. -/
theorem C135_thread_env_refuses {n p : Nat} {as0 as1 : List Act} {s0 s1 s : State} {tr0 es tr : List Ev}
    (h0 : runs step (State.init n) as0 = some (s0, tr0)) (hc : step s0 (.convert p) = some (s1, es))
    (h1 : runs step s1 as1 = some (s, tr)) (hu : Act.startHere s0.next ∉ as1) :
    (∀ c, Ev.accepted c s0.next ∉ tr) ∧
    ∀ t c, s.pc t = .picked c s0.next → ∃ s', step s (.check t) = some (s', [.rejected c s0.next]) := by
  have hh : runs step (State.init n) (as0 ++ [.convert p]) = some (s1, tr0 ++ es) := by
    exact runs_append h0 (by simp [runs, hc])
  have hl : Plain s0.next s1 := by
    crunch hc
    simp [Plain, State.add, State.put, Obj.ofThread]
  have key : ∀ as1 s1 s tr, Inv s1 → Owned s1 → Plain s0.next s1 → runs step s1 as1 = some (s, tr) →
      Act.startHere s0.next ∉ as1 → Inv s ∧ Plain s0.next s ∧ ∀ c, Ev.accepted c s0.next ∉ tr := by
    intro as1
    induction as1 with
    | nil => intro s1 s tr g1 g2 g3 h hu; simp only [runs, Option.some.injEq, Prod.mk.injEq] at h; obtain ⟨rfl, rfl⟩ := h
             exact ⟨g1, g3, by simp⟩
    | cons a as ih =>
      intro s1 s tr g1 g2 g3 h hu
      obtain ⟨s2, es, tr2, k1, k2, rfl⟩ := runs_cons h
      simp only [List.mem_cons, not_or] at hu
      obtain ⟨m1, m2⟩ := plain_step g1 g2 g3 k1 (Ne.symm hu.1)
      obtain ⟨m3, m4, m5⟩ := ih s2 s tr2 (inv_step g1 k1) (owned_step g2 k1) m1 k2 hu.2
      exact ⟨m3, m4, fun c hc => (List.mem_append.mp hc).elim (m2 c) (m5 c)⟩
  obtain ⟨g1, ⟨o, k1, k2, -⟩, g3⟩ := key as1 s1 s tr (inv_runs hh) (owned_runs hh) hl h1 hu
  refine ⟨g3, fun t c ht => ?_⟩
  simp [step, ht, k1, g1.created _ o k1 k2]

/-- A thread binds a coroutine to its own env, which is refused, calls `schedule_in_this_thread`, and then the next one is
accepted and runs. -/
example : (after 1 [.convert 0, .bind 0 10 0, .check 0, .startHere 0, .enterLoop 0, .bind 1 11 0, .check 1, .assert 1, .push 1,
    .busy 1, .sched 0 11] 1).map (·.1) =
  some [.made 0, .chose 10 0, .rejected 10 0, .chose 11 0, .accepted 11 0, .switched 0, .ran 11 0] := by decide

end Verif.EnvLife
