import Verif.Sched.EnvProps

/-! # Blocking objects on one scheduling thread

The machines of the mutexes and monitors let a coroutine make its next step whenever its sleep flag is clear; the machine of
`Verif/Sched/Env.lean` has no idea for what its coroutines wait. Here they run together: an object, and one env to which some of the
coroutines that use the object belong. A coroutine of the env makes a step only while it is the env's running coroutine; where the object
puts it to sleep it registers a wait (`enter_wait_resource_state`, co_ctx.cpp:181-190) and where the object wakes a coroutine the waker
calls `leave_wait_resource_state` (co_ctx.cpp:192-207). The coroutines of other envs run in other threads, whenever the object lets them. -/

namespace Verif.Compose

/-- An object that makes coroutines wait. `who`: who makes the step; `inner`: a step inside a call (not the beginning of one); `busy`:
inside a call; `asleep`: registered as waiting for the object; `parked`: at the `CoYield()` that follows the registration (co_mutex.cpp:63-65,
co_condition_variable.h:64); `parks`: the step registers the wait; `wakes`: the coroutines for which the step calls
`leave_wait_resource_state`. -/
structure Obj (S A E : Type) where
  step : S → A → Option (S × List E)
  who : A → Nat
  inner : A → Bool
  busy : S → Nat → Bool
  asleep : S → Nat → Bool
  parked : S → Nat → Bool
  parks : S → A → Bool
  wakes : S → A → List Nat

/-- What is to be proved of an object (not of the code): the fields of `Obj` describe its steps. (Concerns co_ctx.cpp:181-207, co_env.cpp:216-314.) -/
structure Laws {S A E : Type} (o : Obj S A E) (I : S → Prop) : Prop where
  inv : ∀ {s a s' es}, I s → o.step s a = some (s', es) → I s'
  sleep : ∀ {s a s' es}, I s → o.step s a = some (s', es) → ∀ t,
    (o.asleep s' t = true ↔ (o.asleep s t = true ∨ (t = o.who a ∧ o.parks s a = true)) ∧ t ∉ o.wakes s a)
  other : ∀ {s a s' es}, I s → o.step s a = some (s', es) → ∀ t, t ≠ o.who a → o.busy s' t = o.busy s t ∧ o.parked s' t = o.parked s t
  stay : ∀ {s t}, I s → o.asleep s t = true → o.busy s t = true
  blocked : ∀ {s a}, I s → o.parked s (o.who a) = true → o.asleep s (o.who a) = true → o.step s a = none
  outside : ∀ {s a}, I s → o.busy s (o.who a) = false → o.inner a = true → o.step s a = none

section
variable {S A E : Type}

/-- The object and the env. (co_env.h:58-159.) -/
structure St (S : Type) where
  obj : S
  env : Sched.State

/-- Events of the env and of the object. (Concerns co_ctx.cpp:181-207, co_env.cpp:216-314.) -/
inductive Ev (E : Type)
  | env (e : Sched.Ev)
  | obj (e : E)
deriving DecidableEq, Repr

/-- A step of the env that has nothing to do with the object (including what its coroutines do besides); a step of a coroutine in the
object. (Concerns co_ctx.cpp:181-207, co_env.cpp:216-314.) -/
inductive Act (A : Type)
  | env (a : Sched.Act)
  | obj (a : A)
deriving DecidableEq, Repr

/-- The events of the env. (Concerns co_ctx.cpp:181-207, co_env.cpp:216-314.) -/
def envs : List (Ev E) → List Sched.Ev
  | [] => []
  | .env e :: l => e :: envs l
  | .obj _ :: l => envs l

/-- The events of the object. (Concerns co_ctx.cpp:181-207, co_env.cpp:216-314.) -/
def objs : List (Ev E) → List E
  | [] => []
  | .env _ :: l => objs l
  | .obj e :: l => e :: objs l

/-- The steps of the object. (Concerns co_ctx.cpp:181-207, co_env.cpp:216-314.) -/
def objActs : List (Act A) → List A
  | [] => []
  | .env _ :: l => objActs l
  | .obj a :: l => a :: objActs l

/-- Can coroutine `t` execute code now: it is the running coroutine of the env, has not ended, is not inside `set_priority` and has not
registered a wait for something else than the object (`R`) - who does yields at once (for example co_sleep, co_condition_variable.h:62-64);
or it does not belong to the env. -/
def exec (R : Nat) (s : Sched.State) (t : Nat) : Prop :=
  (s.curr = some t ∧ (s.ctx t).st ≠ .finished ∧ (s.chg t).all (fun g => !g.self) = true ∧ ∀ r ∈ (s.ctx t).res, r = R) ∨
  (s.mem t = false ∧ s.dead t = false)

instance (R : Nat) (s : Sched.State) (t : Nat) : Decidable (exec R s t) := by unfold exec; infer_instance

/-- Steps of the env besides those of the object. Inside a call a coroutine does nothing else; waits for the object are registered
and ended by the object only; between the registration and the `CoYield()` no switch happens (`CoPreemptGuard`, co_mutex.cpp:20,
co_condition_variable.h:55); elsewhere the running coroutine can be switched at any time (more than the code does: in most of the calls
preemption is off). A coroutine that comes from another env waits for the object iff the object says so. -/
def allowed (o : Obj S A E) (R : Nat) (s : St S) : Sched.Act → Bool
  | .enter c r => r != R && !o.busy s.obj c
  | .leave _ r => r != R
  | .finish c => !o.busy s.obj c
  | .setPrio c _ self => !self || !o.busy s.obj c
  | .pick => match s.env.curr with
    | none => true
    | some c => !o.asleep s.obj c || o.parked s.obj c
  | .add c v => (decide (R ∈ v.res) == o.asleep s.obj c) && (!o.asleep s.obj c || o.parked s.obj c) &&
      (!o.busy s.obj c || v.res.all (· == R))
  | _ => true

/-- What a step of the object does to the env: registering the wait of the coroutine itself, ending the waits of the woken ones (for those
who belong to the env). (Concerns co_ctx.cpp:181-207, co_env.cpp:216-314.) -/
def effects (o : Obj S A E) (R : Nat) (s : St S) (a : A) : List Sched.Act :=
  (if o.parks s.obj a && s.env.mem (o.who a) then [.enter (o.who a) R] else []) ++
    ((o.wakes s.obj a).filter s.env.mem).map (.leave · R)

/-- One step. (co_env.cpp:241-294, 531-593 together with the object.) -/
def step (o : Obj S A E) (R : Nat) (s : St S) : Act A → Option (St S × List (Ev E))
  | .env a =>
    if allowed o R s a = true then
      (Sched.step false s.env a).map fun r => (⟨s.obj, r.1⟩, r.2.map .env)
    else none
  | .obj a =>
    if exec R s.env (o.who a) then
      match o.step s.obj a with
      | none => none
      | some (m, es) =>
        (runs (Sched.step false) s.env (effects o R s a)).map fun r => (⟨m, r.1⟩, r.2.map .env ++ es.map .obj)
    else none

/-- An object and a fresh env. (Concerns co_ctx.cpp:181-207, co_env.cpp:216-314.) -/
def St.init (s0 : S) : St S := ⟨s0, Sched.State.init⟩

/-! ## The two halves of an execution -/

theorem envs_append (l l' : List (Ev E)) : envs (l ++ l') = envs l ++ envs l' := by
  induction l with
  | nil => rfl
  | cons e l ih => cases e <;> simp [envs, ih]

theorem objs_append (l l' : List (Ev E)) : objs (l ++ l') = objs l ++ objs l' := by
  induction l with
  | nil => rfl
  | cons e l ih => cases e <;> simp [objs, ih]

theorem envs_env (l : List Sched.Ev) : envs (l.map (Ev.env (E := E))) = l := by
  induction l with
  | nil => rfl
  | cons e l ih => simp [envs, ih]

theorem objs_env (l : List Sched.Ev) : objs (l.map (Ev.env (E := E))) = [] := by
  induction l with
  | nil => rfl
  | cons e l ih => simp [objs, ih]

theorem envs_obj (l : List E) : envs (l.map Ev.obj) = [] := by
  induction l with
  | nil => rfl
  | cons e l ih => simp [envs, ih]

theorem objs_obj (l : List E) : objs (l.map Ev.obj) = l := by
  induction l with
  | nil => rfl
  | cons e l ih => simp [objs, ih]

theorem obj_runs {o : Obj S A E} {R : Nat} : ∀ (as : List (Act A)) (s s' : St S) (es : List (Ev E)),
    runs (step o R) s as = some (s', es) → runs o.step s.obj (objActs as) = some (s'.obj, objs es) := by
  intro as
  induction as with
  | nil =>
    intro s s' es h
    simp only [runs, Option.some.injEq, Prod.mk.injEq] at h
    obtain ⟨rfl, rfl⟩ := h
    rfl
  | cons a as ih =>
    intro s s' es h
    obtain ⟨s1, e1, e2, h1, h2, rfl⟩ := runs_cons h
    have ih' := ih _ _ _ h2
    cases a with
    | env a =>
      simp only [step] at h1
      split at h1
      · simp only [Option.map_eq_some_iff, Prod.mk.injEq] at h1
        obtain ⟨r, -, rfl, rfl⟩ := h1
        simpa [objActs, objs_append, objs_env] using ih'
      · cases h1
    | obj a =>
      simp only [step] at h1
      split at h1
      · split at h1
        · cases h1
        · rename_i m es hm
          simp only [Option.map_eq_some_iff, Prod.mk.injEq] at h1
          obtain ⟨r, -, rfl, rfl⟩ := h1
          simp only [objActs, runs, hm, objs_append, objs_env, objs_obj, List.nil_append]
          rw [show (⟨m, r.1⟩ : St S).obj = m from rfl] at ih'
          simp [ih']
      · cases h1

theorem env_runs {o : Obj S A E} {R : Nat} : ∀ (as : List (Act A)) (s s' : St S) (es : List (Ev E)),
    runs (step o R) s as = some (s', es) → ∃ bs, runs (Sched.step false) s.env bs = some (s'.env, envs es) := by
  intro as
  induction as with
  | nil =>
    intro s s' es h
    simp only [runs, Option.some.injEq, Prod.mk.injEq] at h
    obtain ⟨rfl, rfl⟩ := h
    exact ⟨[], rfl⟩
  | cons a as ih =>
    intro s s' es h
    obtain ⟨s1, e1, e2, h1, h2, rfl⟩ := runs_cons h
    obtain ⟨bs, hb⟩ := ih _ _ _ h2
    cases a with
    | env a =>
      simp only [step] at h1
      split at h1
      · simp only [Option.map_eq_some_iff, Prod.mk.injEq] at h1
        obtain ⟨r, hr, rfl, rfl⟩ := h1
        refine ⟨a :: bs, ?_⟩
        simp only [runs, hr, hb, envs_append, envs_env]
      · cases h1
    | obj a =>
      simp only [step] at h1
      split at h1
      · split at h1
        · cases h1
        · rename_i m es hm
          simp only [Option.map_eq_some_iff, Prod.mk.injEq] at h1
          obtain ⟨r, hr, rfl, rfl⟩ := h1
          refine ⟨effects o R s a ++ bs, ?_⟩
          rw [runs_append hr hb]
          simp [envs_append, envs_env, envs_obj]
      · cases h1

/-! ## Invariant -/

/-- Proof device. (Concerns co_ctx.cpp:181-207, co_env.cpp:216-314.) -/
structure Inv (o : Obj S A E) (I : S → Prop) (R : Nat) (s : St S) : Prop where
  obj : I s.obj
  env : Sched.Inv s.env
  link : ∀ t, s.env.mem t = true → (R ∈ (s.env.ctx t).res ↔ o.asleep s.obj t = true)
  rest : ∀ t, s.env.mem t = true → s.env.curr ≠ some t → o.asleep s.obj t = true → o.parked s.obj t = true
  fin : ∀ t, s.env.mem t = true → (s.env.ctx t).st = .finished → o.busy s.obj t = false
  dead : ∀ t, s.env.dead t = true → o.busy s.obj t = false
  only : ∀ t, s.env.mem t = true → o.busy s.obj t = true → ∀ r ∈ (s.env.ctx t).res, r = R

theorem inv_init {o : Obj S A E} {I : S → Prop} {R : Nat} {s0 : S} (h0 : I s0) : Inv o I R (St.init s0) := by
  refine ⟨h0, Sched.inv_init, ?_, ?_, ?_, ?_, ?_⟩ <;> simp [St.init, Sched.State.init]

/-- Proof device: a step of the env that takes no coroutine's wait, end, or turn to run. (Concerns co_ctx.cpp:181-207, co_env.cpp:216-314.) -/
structure Frame (s s' : Sched.State) : Prop where
  mem : ∀ t, s'.mem t = true → s.mem t = true
  curr : s'.curr = s.curr
  dead : ∀ t, s'.dead t = true → s.dead t = true ∨ (s.mem t = true ∧ (s.ctx t).st = .finished)
  fin : ∀ t, (s'.ctx t).st = .finished ↔ (s.ctx t).st = .finished
  res : ∀ t, (s'.ctx t).res = (s.ctx t).res

theorem frame {s s' : Sched.State} {a : Sched.Act} {es : List Sched.Ev} (hs : Sched.step false s a = some (s', es))
    (ha : match a with
      | .add _ _ | .enter _ _ | .leave _ _ | .finish _ | .pick => False
      | _ => True) : Frame s s' := by
  cases a with
  | add | enter | leave | finish | pick => exact ha.elim
  | wake d ph =>
    simp only [Sched.step] at hs
    split at hs
    · cases ph <;> simp only at hs <;> repeat' split at hs
      all_goals (simp only [Option.some.injEq, Prod.mk.injEq] at hs; obtain ⟨rfl, rfl⟩ := hs)
      all_goals exact ⟨fun _ h => h, rfl, fun _ h => .inl h, fun _ => Iff.rfl, fun _ => rfl⟩
    · simp at hs
  | setPrio d v self =>
    simp only [Sched.step] at hs
    repeat' split at hs
    all_goals simp only [Option.some.injEq, Prod.mk.injEq, reduceCtorEq] at hs
    all_goals
      obtain ⟨rfl, rfl⟩ := hs
      refine ⟨fun _ h => h, rfl, fun _ h => .inl h, fun t => ?_, fun t => ?_⟩ <;> by_cases ht : t = d <;> simp [Sched.set_apply, ht]
  | unlock d =>
    simp only [Sched.step] at hs
    repeat' split at hs
    all_goals simp only [Option.some.injEq, Prod.mk.injEq, reduceCtorEq] at hs
    obtain ⟨rfl, rfl⟩ := hs
    refine ⟨fun _ h => h, rfl, fun _ h => .inl h, fun t => ?_, fun t => ?_⟩ <;> by_cases ht : t = d <;> simp [Sched.set_apply, ht]
  | remove d =>
    simp only [Sched.step] at hs
    split at hs
    · rename_i hd
      simp only [Option.some.injEq, Prod.mk.injEq] at hs
      obtain ⟨rfl, rfl⟩ := hs
      refine ⟨fun t h => ?_, rfl, fun t h => ?_, fun _ => Iff.rfl, fun _ => rfl⟩
      · by_cases ht : t = d
        · subst ht; exact hd.2.1
        · simpa [Sched.set_apply, ht] using h
      · by_cases ht : t = d
        · subst ht; exact .inr ⟨hd.2.1, hd.2.2.1⟩
        · exact .inl (by simpa [Sched.set_apply, ht] using h)
    · simp at hs
  | takeAll =>
    simp only [Sched.step] at hs
    split at hs
    · simp only [Option.some.injEq, Prod.mk.injEq] at hs
      obtain ⟨rfl, rfl⟩ := hs
      refine ⟨fun t h => ?_, rfl, fun _ h => .inl h, fun _ => Iff.rfl, fun _ => rfl⟩
      simp only [Sched.State.takeAll, Bool.and_eq_true] at h
      exact h.1
    · simp at hs
  | takeOne =>
    simp only [Sched.step] at hs
    repeat' split at hs
    all_goals simp only [Option.some.injEq, Prod.mk.injEq, reduceCtorEq] at hs
    · rename_i i d _
      obtain ⟨rfl, rfl⟩ := hs
      refine ⟨fun t h => ?_, rfl, fun _ h => .inl h, fun _ => Iff.rfl, fun _ => rfl⟩
      by_cases ht : t = d
      · subst ht; simp at h
      · simpa [Sched.set_apply, ht] using h
    · obtain ⟨rfl, rfl⟩ := hs
      exact ⟨fun _ h => h, rfl, fun _ h => .inl h, fun _ => Iff.rfl, fun _ => rfl⟩
  | erase d =>
    simp only [Sched.step] at hs
    repeat' split at hs
    all_goals simp only [Option.some.injEq, Prod.mk.injEq, reduceCtorEq] at hs
    all_goals (obtain ⟨rfl, rfl⟩ := hs; exact ⟨fun _ h => h, rfl, fun _ h => .inl h, fun _ => Iff.rfl, fun _ => rfl⟩)
  | push d =>
    simp only [Sched.step] at hs
    repeat' split at hs
    all_goals simp only [Option.some.injEq, Prod.mk.injEq, reduceCtorEq] at hs
    all_goals (obtain ⟨rfl, rfl⟩ := hs; exact ⟨fun _ h => h, rfl, fun _ h => .inl h, fun _ => Iff.rfl, fun _ => rfl⟩)

theorem Inv.frame {o : Obj S A E} {I : S → Prop} {R : Nat} {s : St S} (h : Inv o I R s) {e : Sched.State} (he : Sched.Inv e)
    (hf : Frame s.env e) : Inv o I R ⟨s.obj, e⟩ where
  obj := h.obj
  env := he
  link t ht := by rw [hf.res]; exact h.link t (hf.mem t ht)
  rest t ht hc := by rw [hf.curr] at hc; exact h.rest t (hf.mem t ht) hc
  fin t ht hx := h.fin t (hf.mem t ht) ((hf.fin t).1 hx)
  dead t ht := by
    rcases hf.dead t ht with h1 | ⟨h1, h2⟩
    · exact h.dead t h1
    · exact h.fin t h1 h2
  only t ht hb := by rw [hf.res]; exact h.only t (hf.mem t ht) hb

theorem inv_env {o : Obj S A E} {I : S → Prop} {R : Nat} {s : St S} {a : Sched.Act} {e : Sched.State} {es : List Sched.Ev}
    (h : Inv o I R s) (ha : allowed o R s a = true) (hs : Sched.step false s.env a = some (e, es)) : Inv o I R ⟨s.obj, e⟩ := by
  have hI := Sched.inv_step h.env hs
  cases a with
  | add d v =>
    simp only [Sched.step] at hs
    simp only [allowed, Bool.and_eq_true, beq_iff_eq, Bool.or_eq_true, Bool.not_eq_true', List.all_eq_true] at ha
    obtain ⟨⟨ha1, ha2⟩, ha3⟩ := ha
    split at hs
    · rename_i hd
      simp only [Option.some.injEq, Prod.mk.injEq] at hs
      obtain ⟨rfl, rfl⟩ := hs
      refine ⟨h.obj, hI, ?_, ?_, ?_, h.dead, ?_⟩
      · intro t ht
        by_cases hx : t = d
        · subst hx; simp only [Sched.set_same]; rw [← ha1]; simp
        · simp only [Sched.set_other _ _ hx] at ht ⊢; exact h.link t ht
      · intro t ht hc hsl
        by_cases hx : t = d
        · subst hx
          rcases ha2 with h1 | h1
          · rw [h1] at hsl; cases hsl
          · exact h1
        · simp only [Sched.set_other _ _ hx] at ht; exact h.rest t ht hc hsl
      · intro t ht hf
        by_cases hx : t = d
        · subst hx; simp only [Sched.set_same] at hf; rw [hd.2.2.2.2.1] at hf; cases hf
        · simp only [Sched.set_other _ _ hx] at ht hf; exact h.fin t ht hf
      · intro t ht hb
        by_cases hx : t = d
        · subst hx
          simp only [Sched.set_same]
          rcases ha3 with h1 | h1
          · rw [h1] at hb; cases hb
          · simpa using h1
        · simp only [Sched.set_other _ _ hx] at ht ⊢; exact h.only t ht hb
    · simp at hs
  | enter d r =>
    simp only [Sched.step] at hs
    simp only [allowed, Bool.and_eq_true, bne_iff_ne, ne_eq, Bool.not_eq_true'] at ha
    split at hs
    · simp only [Option.some.injEq, Prod.mk.injEq] at hs
      obtain ⟨rfl, rfl⟩ := hs
      refine ⟨h.obj, hI, ?_, h.rest, ?_, h.dead, ?_⟩
      · intro t ht
        by_cases hx : t = d
        · subst hx
          simp only [Sched.set_same, Sched.Ctx.enter]
          rw [← h.link t ht]
          split
          · rfl
          · simp [Ne.symm ha.1]
        · simp only [Sched.set_other _ _ hx]; exact h.link t ht
      · intro t ht hf
        by_cases hx : t = d
        · subst hx; exact ha.2
        · simp only [Sched.set_other _ _ hx] at hf; exact h.fin t ht hf
      · intro t ht hb
        by_cases hx : t = d
        · subst hx; rw [ha.2] at hb; cases hb
        · simp only [Sched.set_other _ _ hx]; exact h.only t ht hb
    · simp at hs
  | leave d r =>
    simp only [Sched.step] at hs
    simp only [allowed, bne_iff_ne, ne_eq] at ha
    split at hs
    · simp only [Option.some.injEq, Prod.mk.injEq] at hs
      obtain ⟨rfl, rfl⟩ := hs
      refine ⟨h.obj, hI, ?_, h.rest, ?_, h.dead, ?_⟩
      · intro t ht
        by_cases hx : t = d
        · subst hx
          simp only [Sched.set_same, Sched.Ctx.leave, List.mem_filter, decide_eq_true_eq]
          rw [← h.link t ht]
          exact ⟨fun q => q.1, fun q => ⟨q, Ne.symm ha⟩⟩
        · simp only [Sched.set_other _ _ hx]; exact h.link t ht
      · intro t ht hf
        by_cases hx : t = d
        · subst hx; simp only [Sched.set_same, Sched.Ctx.leave] at hf; exact h.fin t ht hf
        · simp only [Sched.set_other _ _ hx] at hf; exact h.fin t ht hf
      · intro t ht hb
        by_cases hx : t = d
        · subst hx
          simp only [Sched.set_same, Sched.Ctx.leave, List.mem_filter, decide_eq_true_eq]
          exact fun r hr => h.only t ht hb r hr.1
        · simp only [Sched.set_other _ _ hx]; exact h.only t ht hb
    · simp at hs
  | finish d =>
    simp only [Sched.step] at hs
    simp only [allowed, Bool.not_eq_true'] at ha
    split at hs
    · simp only [Option.some.injEq, Prod.mk.injEq] at hs
      obtain ⟨rfl, rfl⟩ := hs
      refine ⟨h.obj, hI, ?_, h.rest, ?_, h.dead, ?_⟩
      · intro t ht
        by_cases hx : t = d
        · subst hx; simp only [Sched.set_same]; exact h.link t ht
        · simp only [Sched.set_other _ _ hx]; exact h.link t ht
      · intro t ht hf
        by_cases hx : t = d
        · subst hx; exact ha
        · simp only [Sched.set_other _ _ hx] at hf; exact h.fin t ht hf
      · intro t ht hb
        by_cases hx : t = d
        · subst hx; rw [ha] at hb; cases hb
        · simp only [Sched.set_other _ _ hx]; exact h.only t ht hb
    · simp at hs
  | pick =>
    simp only [Sched.step] at hs
    split at hs
    · simp only [Option.some.injEq, Prod.mk.injEq] at hs
      obtain ⟨rfl, rfl⟩ := hs
      obtain ⟨f1, f2, f3, f4, f5, f6, f7⟩ := Sched.pick_fields s.env
      refine ⟨h.obj, hI, ?_, ?_, ?_, ?_, ?_⟩
      · intro t ht
        rw [f1] at ht
        simp only [(Sched.pick_ctx (s := s.env) t).2.1]; exact h.link t ht
      · intro t ht hc hsl
        rw [f1] at ht
        by_cases hx : s.env.curr = some t
        · simp only [allowed, hx, Bool.or_eq_true, Bool.not_eq_true'] at ha
          rcases ha with h1 | h1
          · rw [h1] at hsl; cases hsl
          · exact h1
        · exact h.rest t ht hx hsl
      · intro t ht hf
        rw [f1] at ht
        exact h.fin t ht ((Sched.pick_ctx (s := s.env) t).2.2.2.2.2.2.1.1 hf)
      · intro t ht
        rw [f2] at ht
        exact h.dead t ht
      · intro t ht hb
        rw [f1] at ht
        simp only [(Sched.pick_ctx (s := s.env) t).2.1]; exact h.only t ht hb
    · simp at hs
  | wake | setPrio | erase | push | unlock | remove | takeAll | takeOne => exact h.frame hI (Verif.Compose.frame hs trivial)

/-! ## A step of the object -/

/-- Proof device: the env after the wake-ups of `l`. -/
theorem leaves {R : Nat} : ∀ (l : List Nat) (s : Sched.State), (∀ u ∈ l, s.mem u = true) →
    ∃ s' es, runs (Sched.step false) s (l.map (.leave · R)) = some (s', es) ∧ s'.mem = s.mem ∧ s'.curr = s.curr ∧ s'.dead = s.dead ∧
      (∀ t, (s'.ctx t).st = (s.ctx t).st) ∧ ∀ t r, r ∈ (s'.ctx t).res ↔ r ∈ (s.ctx t).res ∧ ¬ (r = R ∧ t ∈ l) := by
  intro l
  induction l with
  | nil => intro s _; exact ⟨s, [], rfl, rfl, rfl, rfl, fun _ => rfl, fun t r => by simp⟩
  | cons u l ih =>
    intro s hm
    have hu := hm u (by simp)
    obtain ⟨s', es, h1, h2, h3, h4, h5, h6⟩ := ih
      { s with ctx := Sched.set s.ctx u ((s.ctx u).leave R), pend := (u, .test) :: s.pend } (fun v hv => hm v (by simp [hv]))
    have hstep : Sched.step false s (.leave u R) = 
        some ({ s with ctx := Sched.set s.ctx u ((s.ctx u).leave R), pend := (u, .test) :: s.pend }, [.leave u R, .wakeBegin u]) := by simp [Sched.step, hu]
    refine ⟨s', _, by simp only [List.map_cons, runs, hstep, h1]; rfl, h2, h3, h4, ?_, ?_⟩
    · intro t
      rw [h5 t]
      by_cases ht : t = u
      · subst ht; simp [Sched.Ctx.leave]
      · simp [Sched.set_apply, ht]
    · intro t r
      rw [h6 t r]
      by_cases ht : t = u
      · subst ht
        simp only [Sched.set_same, Sched.Ctx.leave, List.mem_filter, decide_eq_true_eq, List.mem_cons, true_or, and_true]
        constructor
        · rintro ⟨⟨q1, q2⟩, _⟩; exact ⟨q1, q2⟩
        · rintro ⟨q1, q2⟩; exact ⟨⟨q1, q2⟩, fun q => q2 q.1⟩
      · simp [Sched.set_apply, ht]

/-- Proof device: the env after a step of the object. -/
theorem effects_run {o : Obj S A E} {R : Nat} {s : St S} {a : A} (hx : exec R s.env (o.who a)) (hI : Sched.Inv s.env) :
    ∃ e es, runs (Sched.step false) s.env (effects o R s a) = some (e, es) ∧ e.mem = s.env.mem ∧ e.curr = s.env.curr ∧
      e.dead = s.env.dead ∧ (∀ t, (e.ctx t).st = (s.env.ctx t).st) ∧
      ∀ t r, s.env.mem t = true → (r ∈ (e.ctx t).res ↔
        (r ∈ (s.env.ctx t).res ∨ (r = R ∧ t = o.who a ∧ o.parks s.obj a = true)) ∧ ¬ (r = R ∧ t ∈ o.wakes s.obj a)) := by
  have hl : ∀ u ∈ (o.wakes s.obj a).filter s.env.mem, s.env.mem u = true := fun u hu => (List.mem_filter.1 hu).2
  by_cases hp : o.parks s.obj a = true ∧ s.env.mem (o.who a) = true
  · obtain ⟨hp1, hp2⟩ := hp
    have hc : s.env.curr = some (o.who a) ∧ (s.env.ctx (o.who a)).st ≠ .finished := by
      rcases hx with h1 | h1
      · exact ⟨h1.1, h1.2.1⟩
      · rw [hp2] at h1; simp at h1
    have hstep : Sched.step false s.env (.enter (o.who a) R) =
        some ({ s.env with ctx := Sched.set s.env.ctx (o.who a) ((s.env.ctx (o.who a)).enter R) }, [.enter (o.who a) R]) := by
      simp [Sched.step, hc]
    obtain ⟨e, es, h1, h2, h3, h4, h5, h6⟩ := leaves (R := R) ((o.wakes s.obj a).filter s.env.mem)
      { s.env with ctx := Sched.set s.env.ctx (o.who a) ((s.env.ctx (o.who a)).enter R) } hl
    refine ⟨e, _, by simp only [effects, hp1, hp2, Bool.and_self, if_true, List.singleton_append, runs, hstep, h1]; rfl, h2, h3, h4, ?_, ?_⟩
    · intro t
      rw [h5]
      by_cases ht : t = o.who a
      · subst ht; simp [Sched.Ctx.enter]
      · simp [Sched.set_apply, ht]
    · intro t r hm
      rw [h6]
      simp only [List.mem_filter, hm, and_true]
      by_cases ht : t = o.who a
      · subst ht
        simp only [Sched.set_same, Sched.Ctx.enter, hp1, and_true]
        constructor
        · rintro ⟨q1, q2⟩
          refine ⟨?_, q2⟩
          split at q1
          · exact .inl q1
          · simp only [List.mem_cons] at q1; exact q1.symm
        · rintro ⟨q1, q2⟩
          refine ⟨?_, q2⟩
          split
          · rename_i hR
            rcases q1 with q1 | rfl
            · exact q1
            · exact hR
          · simp only [List.mem_cons]; exact q1.symm
      · simp [Sched.set_apply, ht]
  · obtain ⟨e, es, h1, h2, h3, h4, h5, h6⟩ := leaves (R := R) ((o.wakes s.obj a).filter s.env.mem) s.env hl
    have he : effects o R s a = ((o.wakes s.obj a).filter s.env.mem).map (.leave · R) := by
      simp only [effects]
      rw [if_neg (by simpa using hp)]
      rfl
    refine ⟨e, es, by rw [he]; exact h1, h2, h3, h4, h5, ?_⟩
    intro t r hm
    rw [h6]
    simp only [List.mem_filter, hm, and_true]
    constructor
    · rintro ⟨q1, q2⟩; exact ⟨.inl q1, q2⟩
    · rintro ⟨q1 | ⟨_, rfl, q⟩, q2⟩
      · exact ⟨q1, q2⟩
      · exact absurd ⟨q, hm⟩ hp

theorem inv_obj {o : Obj S A E} {I : S → Prop} {R : Nat} (L : Laws o I) {s : St S} {a : A} {m : S} {es : List E}
    {e : Sched.State} {fs : List Sched.Ev} (h : Inv o I R s) (hx : exec R s.env (o.who a)) (hs : o.step s.obj a = some (m, es))
    (he : runs (Sched.step false) s.env (effects o R s a) = some (e, fs)) : Inv o I R ⟨m, e⟩ := by
  obtain ⟨e', fs', h1, h2, h3, h4, h5, h6⟩ := effects_run hx h.env
  rw [he] at h1
  simp only [Option.some.injEq, Prod.mk.injEq] at h1
  obtain ⟨rfl, rfl⟩ := h1
  have hsl := L.sleep h.obj hs
  have hoth := L.other h.obj hs
  have hIm := L.inv h.obj hs
  have hwho : ∀ t, s.env.mem t = true → s.env.curr ≠ some t → t ≠ o.who a := by
    rintro t ht hc rfl
    rcases hx with q | q
    · exact hc q.1
    · rw [ht] at q; simp at q
  have hIe : Sched.Inv e := runs_inv Sched.Inv (fun _ _ _ _ hI hst => Sched.inv_step hI hst) _ _ _ _ h.env he
  refine ⟨hIm, hIe, ?_, ?_, ?_, ?_, ?_⟩
  · intro t ht
    simp only [h2] at ht
    simp only [h6 t R ht, hsl t, true_and]
    rw [h.link t ht]
  · intro t ht hc hq
    simp only [h2] at ht
    simp only [h3] at hc
    have hne := hwho t ht hc
    rw [(hoth t hne).2]
    apply h.rest t ht hc
    rw [hsl t] at hq
    simp only [hne, false_and, or_false] at hq
    exact hq.1
  · intro t ht hf
    simp only [h2] at ht
    rw [h5] at hf
    by_cases hw : t = o.who a
    · subst hw
      rcases hx with q | q
      · exact absurd hf q.2.1
      · rw [ht] at q; simp at q
    · rw [(hoth t hw).1]; exact h.fin t ht hf
  · intro t ht
    simp only [h4] at ht
    by_cases hw : t = o.who a
    · subst hw
      rcases hx with q | q
      · have := h.env.dead _ ht
        rw [(h.env.curr _ q.1).1] at this; cases this
      · rw [ht] at q; simp at q
    · rw [(hoth t hw).1]; exact h.dead t ht
  · intro t ht hb r hr
    simp only [h2] at ht
    rw [h6 t r ht] at hr
    rcases hr.1 with q | q
    · by_cases hw : t = o.who a
      · subst hw
        rcases hx with q' | q'
        · exact q'.2.2.2 r q
        · rw [ht] at q'; simp at q'
      · rw [(hoth t hw).1] at hb; exact h.only t ht hb r q
    · exact q.1

theorem inv_step {o : Obj S A E} {I : S → Prop} {R : Nat} (L : Laws o I) (s : St S) (a : Act A) (s' : St S) (es : List (Ev E))
    (h : Inv o I R s) (hs : step o R s a = some (s', es)) : Inv o I R s' := by
  cases a with
  | env a =>
    simp only [step] at hs
    split at hs
    · rename_i ha
      simp only [Option.map_eq_some_iff, Prod.mk.injEq] at hs
      obtain ⟨r, hr, rfl, rfl⟩ := hs
      exact inv_env h ha hr
    · cases hs
  | obj a =>
    simp only [step] at hs
    split at hs
    · rename_i hx
      split at hs
      · cases hs
      · rename_i m es hm
        simp only [Option.map_eq_some_iff, Prod.mk.injEq] at hs
        obtain ⟨r, hr, rfl, rfl⟩ := hs
        exact inv_obj L h hx hm hr
    · cases hs

theorem inv_runs {o : Obj S A E} {I : S → Prop} {R : Nat} (L : Laws o I) {s0 : S} (h0 : I s0) {as : List (Act A)} {s : St S}
    {es : List (Ev E)} (h : runs (step o R) (St.init s0) as = some (s, es)) :
    Inv o I R s ∧ Sched.Agree s.env (Sched.view (envs es)) := by
  refine ⟨runs_inv (Inv o I R) (inv_step L) as _ s es (inv_init h0) h, ?_⟩
  obtain ⟨bs, hb⟩ := env_runs as _ s es h
  exact (Sched.agree_runs hb).2

/-! ## What the scheduler and the object know of each other -/

/-- The coroutine belongs to the env, and nobody is in the middle of adding it, of waking it or of changing its priority. (Concerns co_ctx.cpp:181-207, co_env.cpp:216-314.) -/
def Settled (w : Sched.View) (t : Nat) : Prop := w.mem t = true ∧ w.wake t = 0 ∧ w.prioOp t = 0

/-- **C101, they agree**: a coroutine of the env that is inside a call of the object is runnable for the scheduler exactly if the object
does not make it wait. -/
theorem C101_agree {o : Obj S A E} {I : S → Prop} {R : Nat} (L : Laws o I) {s0 : S} (h0 : I s0) {as : List (Act A)} {s : St S}
    {es : List (Ev E)} (h : runs (step o R) (St.init s0) as = some (s, es)) (t : Nat) (hm : (Sched.view (envs es)).mem t = true)
    (hb : o.busy s.obj t = true) : (Sched.view (envs es)).runnable t ↔ o.asleep s.obj t = false := by
  obtain ⟨hI, hA⟩ := inv_runs L h0 h
  have hm' : s.env.mem t = true := by rw [← hA.mem]; exact hm
  simp only [Sched.View.runnable, hm, true_and, hA.fin t hm', hA.waits t hm', decide_eq_false_iff_not]
  constructor
  · rintro ⟨_, h2⟩
    cases hs : o.asleep s.obj t with
    | false => rfl
    | true => have := (hI.link t hm').2 hs; rw [h2] at this; simp at this
  · intro hs
    refine ⟨fun hf => ?_, ?_⟩
    · have := hI.fin t hm' hf; rw [hb] at this; cases this
    · apply List.eq_nil_iff_forall_not_mem.2
      intro r hr
      have := hI.only t hm' hb r hr
      subst this
      have := (hI.link t hm').1 hr
      rw [hs] at this; cases this

/-- **C101, who waits gets no processor time**: the scheduler gives the thread to nobody whom the object makes wait. -/
theorem C101_waiting_not_run {o : Obj S A E} {I : S → Prop} {R : Nat} (L : Laws o I) {s0 : S} (h0 : I s0) {as : List (Act A)}
    {s s' : St S} {es fs : List (Ev E)} {c : Nat} (h : runs (step o R) (St.init s0) as = some (s, es))
    (hp : step o R s (.env .pick) = some (s', fs)) (hc : fs = [.env (.pick (some c))]) : o.asleep s.obj c = false := by
  obtain ⟨hI, hA⟩ := inv_runs L h0 h
  have hr : runs (step o R) (St.init s0) (as ++ [.env .pick]) = some (s', es ++ fs) := by
    refine runs_append h ?_
    simp [runs, hp]
  obtain ⟨bs, hb⟩ := env_runs _ _ _ _ hr
  rw [envs_append, hc] at hb
  have hrn := Sched.C45_only_runnable hb
  have hm' : s.env.mem c = true := by rw [← hA.mem]; exact hrn.1
  cases hs : o.asleep s.obj c with
  | false => rfl
  | true =>
    have := (hI.link c hm').2 hs
    rw [← hA.waits c hm', hrn.2.2] at this
    simp at this

/-- Proof device. -/
theorem idle {o : Obj S A E} {R : Nat} {s0 : S} {as : List (Act A)}
    {s s' : St S} {es fs : List (Ev E)} (h : runs (step o R) (St.init s0) as = some (s, es))
    (hp : step o R s (.env .pick) = some (s', fs)) (hc : fs = [.env (.pick none)]) (t : Nat)
    (ht : Settled (Sched.view (envs es)) t) : ¬ (Sched.view (envs es)).runnable t := by
  intro hrn
  have hr : runs (step o R) (St.init s0) (as ++ [.env .pick]) = some (s', es ++ fs) := by
    refine runs_append h ?_
    simp [runs, hp]
  obtain ⟨bs, hb⟩ := env_runs _ _ _ _ hr
  rw [envs_append, hc] at hb
  obtain ⟨c, h1, _⟩ := Sched.C43_best_priority_partial hb hrn ht.2.1 ht.2.2
  cases h1

/-- **C101, idle only if everybody waits**: when the scheduler finds nobody to run, every coroutine of the env that is inside a call of the
object waits there and can not make a step; one that is not inside a call has ended or waits for something else. -/
theorem C101_idle {o : Obj S A E} {I : S → Prop} {R : Nat} (L : Laws o I) {s0 : S} (h0 : I s0) {as : List (Act A)}
    {s s' : St S} {es fs : List (Ev E)} (h : runs (step o R) (St.init s0) as = some (s, es))
    (hp : step o R s (.env .pick) = some (s', fs)) (hc : fs = [.env (.pick none)]) (t : Nat)
    (ht : Settled (Sched.view (envs es)) t) :
    (o.busy s.obj t = true → o.asleep s.obj t = true ∧ ∀ a, o.who a = t → o.step s.obj a = none) ∧
    (o.busy s.obj t = false → (Sched.view (envs es)).fin t = true ∨ ∃ r ∈ (Sched.view (envs es)).waits t, r ≠ R) := by
  obtain ⟨hI, hA⟩ := inv_runs L h0 h
  have hm' : s.env.mem t = true := by rw [← hA.mem]; exact ht.1
  have hn := idle h hp hc t ht
  constructor
  · intro hb
    have hs : o.asleep s.obj t = true := by
      cases hs : o.asleep s.obj t with
      | true => rfl
      | false => exact absurd ((C101_agree L h0 h t ht.1 hb).2 hs) hn
    refine ⟨hs, ?_⟩
    rintro a rfl
    refine L.blocked hI.obj ?_ hs
    by_cases hcu : s.env.curr = some (o.who a)
    · simp only [step] at hp
      split at hp
      · rename_i ha
        simp only [allowed, hcu, hs, Bool.not_true, Bool.false_or] at ha
        exact ha
      · cases hp
    · exact hI.rest _ hm' hcu hs
  · intro hb
    cases hf : (Sched.view (envs es)).fin t with
    | true => exact .inl rfl
    | false =>
      right
      cases hw : (Sched.view (envs es)).waits t with
      | nil => exact absurd ⟨ht.1, hf, hw⟩ hn
      | cons r l =>
        refine ⟨r, by simp, ?_⟩
        rintro rfl
        have : r ∈ (s.env.ctx t).res := by rw [← hA.waits t hm', hw]; simp
        have := L.stay hI.obj ((hI.link t hm').1 this)
        rw [hb] at this; cases this

/-- Proof device: the env is idle, and everybody inside a call is one of its coroutines. -/
theorem stuck {o : Obj S A E} {I : S → Prop} {R : Nat} (L : Laws o I) {s0 : S} (h0 : I s0) {as : List (Act A)}
    {s s' : St S} {es fs : List (Ev E)} (h : runs (step o R) (St.init s0) as = some (s, es))
    (hp : step o R s (.env .pick) = some (s', fs)) (hc : fs = [.env (.pick none)])
    (hall : ∀ t, o.busy s.obj t = true → Settled (Sched.view (envs es)) t) (a : A) (ha : o.inner a = true) :
    o.step s.obj a = none := by
  cases hb : o.busy s.obj (o.who a) with
  | true => exact ((C101_idle L h0 h hp hc _ (hall _ hb)).1 hb).2 a rfl
  | false => exact L.outside (inv_runs L h0 h).1.obj hb ha

end
end Verif.Compose
