import Verif.Sched.ComposePipe

/-! # Blocking objects on any number of scheduling threads (C103)

As `Verif/Sched/Compose.lean`, with `n` envs. A coroutine belongs to at most one of them; it can be taken from one and added to another
at any time the code allows (`take_all_movable_ctx`, `take_one_movable_ctx`, co_env.cpp:575-612; the manager, co_manager.cpp:266-306, 441-491). -/

namespace Verif.Compose.Many
variable {S A E : Type}

/-- The object and the envs. (Concerns co_manager.cpp:266-491, co_env.cpp:241-612.) -/
structure St (S : Type) where
  obj : S
  env : Nat → Sched.State

/-- Events of the envs and of the object. (Concerns co_manager.cpp:266-491, co_env.cpp:241-612.) -/
inductive Ev (E : Type)
  | env (e : Nat) (x : Sched.Ev)
  | obj (x : E)
deriving DecidableEq, Repr

/-- A step in env `e` that has nothing to do with the object; a step of a coroutine in the object. (Concerns co_manager.cpp:266-491, co_env.cpp:241-612.) -/
inductive Act (A : Type)
  | env (e : Nat) (a : Sched.Act)
  | obj (a : A)
deriving DecidableEq, Repr

/-- Env `e` with the object. (Concerns co_manager.cpp:266-491, co_env.cpp:241-612.) -/
def St.at (s : St S) (e : Nat) : Compose.St S := ⟨s.obj, s.env e⟩

/-- What env `e` and the object do. (Concerns co_manager.cpp:266-491, co_env.cpp:241-612.) -/
def proj (e : Nat) : List (Ev E) → List (Compose.Ev E)
  | [] => []
  | .env e' x :: l => if e' = e then .env x :: proj e l else proj e l
  | .obj x :: l => .obj x :: proj e l

/-- The steps of the object. (Concerns co_manager.cpp:266-491, co_env.cpp:241-612.) -/
def objActs : List (Act A) → List A
  | [] => []
  | .env _ _ :: l => objActs l
  | .obj a :: l => a :: objActs l

/-- The events of the object. (Concerns co_manager.cpp:266-491, co_env.cpp:241-612.) -/
def objs : List (Ev E) → List E
  | [] => []
  | .env _ _ :: l => objs l
  | .obj x :: l => x :: objs l

/-- Only coroutines that belong to no other env, and are not destroyed, are added (the manager adds what it has created or taken,
co_manager.cpp:266-306, 421-439, 441-491). -/
def alone (n : Nat) (s : St S) (e : Nat) : Sched.Act → Bool
  | .add c _ => (List.range n).all fun e' => e' == e || (!(s.env e').mem c && !(s.env e').dead c)
  | _ => true

/-- Can coroutine `t` execute code now: it runs in one of the envs (see `exec`), or it belongs to none of them (a thread outside the
library; this also lets a coroutine on its way from one env to another run, which the code does not). (Concerns co_manager.cpp:266-491, co_env.cpp:241-612.) -/
def exec (R n : Nat) (s : St S) (t : Nat) : Bool :=
  ((List.range n).any fun e => (s.env e).curr == some t && decide (Compose.exec R (s.env e) t)) ||
    (List.range n).all fun e => !(s.env e).mem t && !(s.env e).dead t

/-- What a step of the object does to env `e`, see `effects`. (Concerns co_manager.cpp:266-491, co_env.cpp:241-612.) -/
def after (o : Obj S A E) (R : Nat) (s : St S) (a : A) (e : Nat) : Option (Sched.State × List Sched.Ev) :=
  runs (Sched.step false) (s.env e) (effects o R (s.at e) a)

/-- What it does to the envs of the list. (Concerns co_manager.cpp:266-491, co_env.cpp:241-612.) -/
def afterAll (o : Obj S A E) (R : Nat) (s : St S) (a : A) : List Nat → Option ((Nat → Sched.State) × List (Ev E))
  | [] => some (s.env, [])
  | e :: l => match after o R s a e with
    | none => none
    | some (r, fs) => match afterAll o R s a l with
      | none => none
      | some (f, gs) => some (upd f e r, fs.map (.env e) ++ gs)

/-- One step. (co_env.cpp:241-294, 531-593; co_manager.cpp:266-306.) -/
def step (o : Obj S A E) (R n : Nat) (s : St S) : Act A → Option (St S × List (Ev E))
  | .env e a =>
    if e < n ∧ allowed o R (s.at e) a = true ∧ alone n s e a = true then
      (Sched.step false (s.env e) a).map fun r => ({ s with env := upd s.env e r.1 }, r.2.map (.env e))
    else none
  | .obj a =>
    if exec R n s (o.who a) = true then
      match o.step s.obj a with
      | none => none
      | some (m, es) => (afterAll o R s a (List.range n)).map fun r => (⟨m, r.1⟩, r.2 ++ es.map .obj)
    else none

/-- An object and fresh envs. (Concerns co_manager.cpp:266-491, co_env.cpp:241-612.) -/
def St.init (s0 : S) : St S := ⟨s0, fun _ => Sched.State.init⟩

/-! ## Each env by itself -/

theorem proj_append (e : Nat) (l l' : List (Ev E)) : proj e (l ++ l') = proj e l ++ proj e l' := by
  induction l with
  | nil => rfl
  | cons x l ih => cases x <;> simp [proj, ih]; split <;> simp

theorem proj_same (e : Nat) (l : List Sched.Ev) : proj e (l.map (Ev.env (E := E) e)) = l.map .env := by
  induction l with
  | nil => rfl
  | cons x l ih => simp [proj, ih]

theorem proj_other {e e' : Nat} (h : e' ≠ e) (l : List Sched.Ev) : proj e (l.map (Ev.env (E := E) e')) = [] := by
  induction l with
  | nil => rfl
  | cons x l ih => simp [proj, ih, h]

theorem proj_obj (e : Nat) (l : List E) : proj e (l.map Ev.obj) = l.map .obj := by
  induction l with
  | nil => rfl
  | cons x l ih => simp [proj, ih]

theorem objs_append (l l' : List (Ev E)) : objs (l ++ l') = objs l ++ objs l' := by
  induction l with
  | nil => rfl
  | cons e l ih => cases e <;> simp [objs, ih]

theorem objs_env (e : Nat) (l : List Sched.Ev) : objs (l.map (Ev.env (E := E) e)) = [] := by
  induction l with
  | nil => rfl
  | cons x l ih => simp [objs, ih]

theorem objs_obj (l : List E) : objs (l.map Ev.obj) = l := by
  induction l with
  | nil => rfl
  | cons x l ih => simp [objs, ih]

theorem objs_after {o : Obj S A E} {R : Nat} {s : St S} {a : A} : ∀ {l : List Nat} {f : Nat → Sched.State} {gs : List (Ev E)},
    afterAll o R s a l = some (f, gs) → objs gs = [] := by
  intro l
  induction l with
  | nil =>
    intro f gs h
    simp only [afterAll, Option.some.injEq, Prod.mk.injEq] at h
    rw [← h.2]; rfl
  | cons e l ih =>
    intro f gs h
    simp only [afterAll] at h
    split at h
    · cases h
    · split at h
      · cases h
      · rename_i f' gs' hl
        simp only [Option.some.injEq, Prod.mk.injEq] at h
        rw [← h.2, objs_append, objs_env, ih hl]; rfl

theorem at_after {o : Obj S A E} {R : Nat} {s : St S} {a : A} (e : Nat) : ∀ {l : List Nat} {f : Nat → Sched.State} {gs : List (Ev E)},
    l.Nodup → afterAll o R s a l = some (f, gs) →
    if e ∈ l then ∃ fs, after o R s a e = some (f e, fs) ∧ proj e gs = fs.map .env else f e = s.env e ∧ proj e gs = [] := by
  intro l
  induction l with
  | nil =>
    intro f gs _ h
    simp only [afterAll, Option.some.injEq, Prod.mk.injEq] at h
    obtain ⟨rfl, rfl⟩ := h
    simp [proj]
  | cons d l ih =>
    intro f gs hn h
    obtain ⟨hd, hn⟩ := List.nodup_cons.1 hn
    simp only [afterAll] at h
    split at h
    · cases h
    · rename_i r fs hr
      split at h
      · cases h
      · rename_i f' gs' hl
        simp only [Option.some.injEq, Prod.mk.injEq] at h
        obtain ⟨rfl, rfl⟩ := h
        have hi := ih hn hl
        by_cases he : d = e
        · subst he
          rw [if_neg hd] at hi
          simp [upd_same, hr, proj_append, proj_same, hi.2]
        · simp only [List.mem_cons, Ne.symm he, false_or, upd_other _ _ (Ne.symm he), proj_append, proj_other he, List.nil_append]
          exact hi

/-- Proof device: a coroutine belongs to one env. (Concerns co_manager.cpp:266-491, co_env.cpp:241-612.) -/
structure Excl (n : Nat) (s : St S) : Prop where
  inv : ∀ e, Sched.Inv (s.env e)
  one : ∀ e e' c, e < n → e' < n → e ≠ e' → (s.env e).mem c = true → (s.env e').mem c = false ∧ (s.env e').dead c = false

theorem excl_init (n : Nat) (s0 : S) : Excl n (St.init s0) :=
  ⟨fun _ => Sched.inv_init, fun e e' c _ _ _ h => by simp [St.init, Sched.State.init] at h⟩

/-- Who belongs to an env after a step was there before or is added; who is destroyed was destroyed or belonged to it. -/
theorem mem_step {s s' : Sched.State} {a : Sched.Act} {es : List Sched.Ev} (hs : Sched.step false s a = some (s', es)) (c : Nat) :
    (s'.mem c = true → s.mem c = true ∨ ∃ v, a = .add c v) ∧ (s'.dead c = true → s.dead c = true ∨ s.mem c = true) := by
  cases a with
  | add d v =>
    simp only [Sched.step] at hs
    split at hs
    · simp only [Option.some.injEq, Prod.mk.injEq] at hs
      obtain ⟨rfl, rfl⟩ := hs
      refine ⟨fun h => ?_, .inl⟩
      by_cases hc : c = d
      · exact .inr ⟨v, by rw [hc]⟩
      · exact .inl (by simpa [Sched.set_apply, hc] using h)
    · simp at hs
  | enter | leave | finish | pick =>
    simp only [Sched.step] at hs
    split at hs
    · simp only [Option.some.injEq, Prod.mk.injEq] at hs
      obtain ⟨rfl, rfl⟩ := hs
      first
      | exact ⟨.inl, .inl⟩
      | rw [(Sched.pick_fields s).1, (Sched.pick_fields s).2.1]; exact ⟨.inl, .inl⟩
    · simp at hs
  | wake | setPrio | erase | push | unlock | remove | takeAll | takeOne =>
    have hf := frame hs trivial
    exact ⟨fun h => .inl (hf.mem c h), fun h => (hf.dead c h).imp_right And.left⟩

theorem exec_at {R n : Nat} {s : St S} (h : Excl n s) {t e : Nat} (he : e < n) (hx : exec R n s t = true) :
    Compose.exec R (s.env e) t := by
  simp only [exec, Bool.or_eq_true, List.any_eq_true, List.all_eq_true, List.mem_range, Bool.and_eq_true, beq_iff_eq, decide_eq_true_eq,
    Bool.not_eq_true'] at hx
  rcases hx with ⟨e', h1, h2, h3⟩ | h1
  · by_cases hee : e' = e
    · subst hee; exact h3
    · exact .inr (h.one e' e t h1 he hee ((h.inv e').curr t h2).1)
  · exact .inr (h1 e he)

theorem after_some {o : Obj S A E} {R n : Nat} {s : St S} {a : A} (h : Excl n s) {e : Nat} (he : e < n)
    (hx : exec R n s (o.who a) = true) : ∃ r fs, after o R s a e = some (r, fs) ∧ r.mem = (s.env e).mem ∧ r.dead = (s.env e).dead ∧
      Sched.Inv r := by
  obtain ⟨r, fs, h1, h2, _, h3, _⟩ := effects_run (o := o) (R := R) (s := s.at e) (exec_at h he hx) (h.inv e)
  exact ⟨r, fs, h1, h2, h3, runs_inv Sched.Inv (fun _ _ _ _ hI hst => Sched.inv_step hI hst) _ _ _ _ (h.inv e) h1⟩

theorem excl_step {o : Obj S A E} {R n : Nat} (s : St S) (a : Act A) (s' : St S) (es : List (Ev E)) (h : Excl n s)
    (hs : step o R n s a = some (s', es)) : Excl n s' := by
  cases a with
  | env e a =>
    simp only [step] at hs
    split at hs
    · rename_i hg
      obtain ⟨hlt, _, hal⟩ := hg
      simp only [Option.map_eq_some_iff, Prod.mk.injEq] at hs
      obtain ⟨r, hr, rfl, rfl⟩ := hs
      refine ⟨fun i => ?_, fun i j c hi hj hij hm => ?_⟩
      · by_cases hie : i = e
        · subst hie; simp only [upd_same]; exact Sched.inv_step (h.inv i) hr
        · simp only [upd_other _ _ hie]; exact h.inv i
      · have hst := mem_step hr c
        by_cases hie : i = e
        · subst hie
          simp only [upd_same] at hm
          simp only [upd_other _ _ (Ne.symm hij)]
          rcases hst.1 hm with h1 | ⟨v, rfl⟩
          · exact h.one i j c hi hj hij h1
          · simp only [alone, List.all_eq_true, List.mem_range, Bool.or_eq_true, beq_iff_eq, Bool.and_eq_true, Bool.not_eq_true'] at hal
            exact (hal j hj).resolve_left (Ne.symm hij)
        · simp only [upd_other _ _ hie] at hm
          by_cases hje : j = e
          · subst hje
            simp only [upd_same]
            have h1 := h.one i j c hi hj hij hm
            refine ⟨?_, ?_⟩
            · cases hq : r.1.mem c with
              | false => rfl
              | true =>
                rcases hst.1 hq with h2 | ⟨v, rfl⟩
                · rw [h1.1] at h2; cases h2
                · simp only [alone, List.all_eq_true, List.mem_range, Bool.or_eq_true, beq_iff_eq, Bool.and_eq_true,
                    Bool.not_eq_true'] at hal
                  have := ((hal i hi).resolve_left hij).1
                  rw [hm] at this; cases this
            · cases hq : r.1.dead c with
              | false => rfl
              | true =>
                rcases hst.2 hq with h2 | h2
                · rw [h1.2] at h2; cases h2
                · rw [h1.1] at h2; cases h2
          · simp only [upd_other _ _ hje]; exact h.one i j c hi hj hij hm
    · cases hs
  | obj a =>
    simp only [step] at hs
    split at hs
    · rename_i hg
      split at hs
      · cases hs
      · simp only [Option.map_eq_some_iff, Prod.mk.injEq] at hs
        obtain ⟨⟨f, gs⟩, hr, rfl, rfl⟩ := hs
        have key : ∀ e, (f e).mem = (s.env e).mem ∧ (f e).dead = (s.env e).dead ∧ Sched.Inv (f e) := by
          intro e
          have hq := at_after e List.nodup_range hr
          by_cases he : e < n
          · rw [if_pos (List.mem_range.2 he)] at hq
            obtain ⟨fs, h5, _⟩ := hq
            obtain ⟨r, fs', h1, h2, h3, h4⟩ := after_some h he hg
            rw [h1] at h5
            simp only [Option.some.injEq, Prod.mk.injEq] at h5
            rw [← h5.1]
            exact ⟨h2, h3, h4⟩
          · rw [if_neg (by simpa using he)] at hq
            rw [hq.1]
            exact ⟨rfl, rfl, h.inv e⟩
        refine ⟨fun i => (key i).2.2, fun i j c hi hj hij hm => ?_⟩
        simp only [(key i).1] at hm
        simp only [(key j).1, (key j).2.1]
        exact h.one i j c hi hj hij hm
    · cases hs

/-- The execution as env `e` sees it: the coroutines of the other envs run whenever the object lets them. -/
theorem at_runs {o : Obj S A E} {R n e : Nat} (he : e < n) : ∀ (as : List (Act A)) (s s' : St S) (es : List (Ev E)), Excl n s →
    runs (step o R n) s as = some (s', es) → ∃ bs, runs (Compose.step o R) (s.at e) bs = some (s'.at e, proj e es) := by
  intro as
  induction as with
  | nil =>
    intro s s' es _ h
    simp only [runs, Option.some.injEq, Prod.mk.injEq] at h
    obtain ⟨rfl, rfl⟩ := h
    exact ⟨[], rfl⟩
  | cons a as ih =>
    intro s s' es hx h
    obtain ⟨s1, e1, e2, h1, h2, rfl⟩ := runs_cons h
    obtain ⟨bs, hb⟩ := ih _ _ _ (excl_step _ _ _ _ hx h1) h2
    rw [proj_append]
    cases a with
    | env i a =>
      simp only [step] at h1
      split at h1
      · rename_i hg
        simp only [Option.map_eq_some_iff, Prod.mk.injEq] at h1
        obtain ⟨r, hr, rfl, rfl⟩ := h1
        by_cases hi : i = e
        · subst hi
          refine ⟨.env a :: bs, ?_⟩
          have hst : Compose.step o R (s.at i) (.env a) = some (⟨s.obj, r.1⟩, r.2.map .env) := by
            simp only [Compose.step, hg.2.1, if_true]
            rw [show (s.at i).env = s.env i from rfl, hr]; rfl
          have hb' : runs (Compose.step o R) ⟨s.obj, r.1⟩ bs = some (s'.at i, proj i e2) := by
            rw [← hb]; simp [St.at]
          simp only [runs, hst, hb', proj_same]
        · refine ⟨bs, ?_⟩
          rw [proj_other hi, List.nil_append, ← hb]
          simp [St.at, upd_other _ _ (Ne.symm hi)]
      · cases h1
    | obj a =>
      simp only [step] at h1
      split at h1
      · rename_i hg
        split at h1
        · cases h1
        · rename_i m es' hm
          simp only [Option.map_eq_some_iff, Prod.mk.injEq] at h1
          obtain ⟨⟨f, gs⟩, hr, rfl, rfl⟩ := h1
          have hq := at_after e List.nodup_range hr
          rw [if_pos (List.mem_range.2 he)] at hq
          obtain ⟨fs, h5, h6⟩ := hq
          refine ⟨.obj a :: bs, ?_⟩
          have hst : Compose.step o R (s.at e) (.obj a) = some (⟨m, f e⟩, fs.map .env ++ es'.map .obj) := by
            simp only [Compose.step]
            rw [if_pos (show Compose.exec R (s.at e).env (o.who a) from exec_at hx he hg), show (s.at e).obj = s.obj from rfl, hm]
            rw [show runs (Sched.step false) (s.at e).env (effects o R (s.at e) a) = some (f e, fs) from h5]
            rfl
          have hb' : runs (Compose.step o R) ⟨m, f e⟩ bs = some (s'.at e, proj e e2) := hb
          simp [runs, hst, hb', proj_append, proj_obj, h6]
      · cases h1

theorem obj_runs {o : Obj S A E} {R n : Nat} : ∀ (as : List (Act A)) (s s' : St S) (es : List (Ev E)),
    runs (step o R n) s as = some (s', es) → runs o.step s.obj (objActs as) = some (s'.obj, objs es) := by
  intro as
  induction as with
  | nil =>
    intro s s' es h
    simp only [runs, Option.some.injEq, Prod.mk.injEq] at h
    obtain ⟨rfl, rfl⟩ := h
    rfl
  | cons a as ih =>
    intro s s' es h
    obtain ⟨s1, e1, e2, h1, h2, rfl⟩ := runs_cons h
    have ih' := ih _ _ _ h2
    cases a with
    | env e a =>
      simp only [step] at h1
      split at h1
      · simp only [Option.map_eq_some_iff, Prod.mk.injEq] at h1
        obtain ⟨r, -, rfl, rfl⟩ := h1
        simpa [objActs, objs_append, objs_env] using ih'
      · cases h1
    | obj a =>
      simp only [step] at h1
      split at h1
      · split at h1
        · cases h1
        · rename_i m es hm
          simp only [Option.map_eq_some_iff, Prod.mk.injEq] at h1
          obtain ⟨r, hr, rfl, rfl⟩ := h1
          simp only [objActs, runs, hm, objs_append, objs_after hr, objs_obj, List.nil_append]
          simp only at ih'
          simp [ih']
      · cases h1

/-! ## All threads idle -/

/-- After the execution `as` no thread finds anybody to run, and everybody inside a call of the object belongs to one of the threads
without anybody being in the middle of adding it, of waking it or of changing its priority. (Concerns co_manager.cpp:266-491, co_env.cpp:241-612.) -/
structure Idle (o : Obj S A E) (R n : Nat) (s0 : S) (as : List (Act A)) (s : St S) (es : List (Ev E)) : Prop where
  run : runs (step o R n) (St.init s0) as = some (s, es)
  pick : ∀ e < n, ∃ s', step o R n s (.env e .pick) = some (s', [.env e (.pick none)])
  here : ∀ t, o.busy s.obj t = true → ∃ e < n, Settled (Sched.view (envs (proj e es))) t

theorem Idle.at {o : Obj S A E} {R n : Nat} {s0 : S} {as : List (Act A)} {s : St S} {es : List (Ev E)} (h : Idle o R n s0 as s es)
    {e : Nat} (he : e < n) : ∃ bs s', runs (Compose.step o R) (Compose.St.init s0) bs = some (s.at e, proj e es) ∧
      Compose.step o R (s.at e) (.env .pick) = some (s', [.env (.pick none)]) := by
  obtain ⟨bs, hb⟩ := at_runs he as _ _ _ (excl_init n s0) h.run
  obtain ⟨s', hp⟩ := h.pick e he
  simp only [step] at hp
  split at hp
  · rename_i hg
    simp only [Option.map_eq_some_iff, Prod.mk.injEq] at hp
    obtain ⟨r, hr, -, h2⟩ := hp
    refine ⟨bs, ⟨s.obj, r.1⟩, hb, ?_⟩
    simp only [Compose.step, hg.2.1, if_true]
    rw [show (s.at e).env = s.env e from rfl, hr]
    have : r.2 = [.pick none] := by
      cases hq : r.2 with
      | nil => rw [hq] at h2; simp at h2
      | cons x l =>
        rw [hq] at h2
        simp only [List.map_cons, List.cons.injEq, Ev.env.injEq, true_and, List.map_eq_nil_iff] at h2
        rw [h2.1, h2.2]
    simp [this, St.at]
  · cases hp

/-- **C103, who waits gets no processor time**, on any thread. -/
theorem C103_waiting_not_run {o : Obj S A E} {I : S → Prop} {R n : Nat} (L : Laws o I) {s0 : S} (h0 : I s0) {as : List (Act A)}
    {s s' : St S} {es : List (Ev E)} {e c : Nat} (h : runs (step o R n) (St.init s0) as = some (s, es))
    (hp : step o R n s (.env e .pick) = some (s', [.env e (.pick (some c))])) : o.asleep s.obj c = false := by
  simp only [step] at hp
  split at hp
  · rename_i hg
    obtain ⟨bs, hb⟩ := at_runs hg.1 as _ _ _ (excl_init n s0) h
    simp only [Option.map_eq_some_iff, Prod.mk.injEq] at hp
    obtain ⟨r, hr, -, h2⟩ := hp
    have hr2 : r.2 = [.pick (some c)] := by
      cases hq : r.2 with
      | nil => rw [hq] at h2; simp at h2
      | cons x l =>
        rw [hq] at h2
        simp only [List.map_cons, List.cons.injEq, Ev.env.injEq, true_and, List.map_eq_nil_iff] at h2
        rw [h2.1, h2.2]
    refine C101_waiting_not_run (s' := ⟨s.obj, r.1⟩) (fs := [.env (.pick (some c))]) (c := c) L h0 hb ?_ rfl
    simp only [Compose.step, hg.2.1, if_true]
    rw [show (s.at e).env = s.env e from rfl, hr]
    simp [hr2, St.at]
  · cases hp

/-- **C103, one thread at a time**: at every moment a coroutine belongs to at most one thread; in particular no two threads run it at the
same time. -/
theorem C103_one_thread {o : Obj S A E} {R n : Nat} {s0 : S} {as : List (Act A)} {s : St S} {es : List (Ev E)}
    (h : runs (step o R n) (St.init s0) as = some (s, es)) {e e' c : Nat} (he : e < n) (he' : e' < n)
    (h1 : (Sched.view (envs (proj e es))).mem c = true) (h2 : (Sched.view (envs (proj e' es))).mem c = true) : e = e' := by
  have hx := runs_inv (Excl n) excl_step as _ s es (excl_init n s0) h
  have key : ∀ i, i < n → (Sched.view (envs (proj i es))).mem c = (s.env i).mem c := by
    intro i hi
    obtain ⟨bs, hb⟩ := at_runs hi as _ _ _ (excl_init n s0) h
    obtain ⟨cs, hc⟩ := env_runs bs _ _ _ hb
    rw [(Sched.agree_runs hc).2.mem]; rfl
  rw [key e he] at h1
  rw [key e' he'] at h2
  by_contra hne
  rw [(hx.one e e' c he he' hne h1).1] at h2
  cases h2

/-- **C103, idle only if everybody waits**: when no thread finds anybody to run, every coroutine inside a call of the object waits there
and can not make a step. -/
theorem C103_idle {o : Obj S A E} {I : S → Prop} {R n : Nat} (L : Laws o I) {s0 : S} (h0 : I s0) {as : List (Act A)}
    {s : St S} {es : List (Ev E)} (h : Idle o R n s0 as s es) (t : Nat) (ht : o.busy s.obj t = true) :
    o.asleep s.obj t = true ∧ ∀ a, o.who a = t → o.step s.obj a = none := by
  obtain ⟨e, he, hs⟩ := h.here t ht
  obtain ⟨bs, s', h1, h2⟩ := h.at he
  exact (C101_idle L h0 h1 h2 rfl t hs).1 ht

/-- A coroutine of an idle thread that is not inside a call has ended or waits for something else. -/
theorem elsewhere {o : Obj S A E} {I : S → Prop} {R n : Nat} (L : Laws o I) {s0 : S} (h0 : I s0) {as : List (Act A)}
    {s : St S} {es : List (Ev E)} (h : Idle o R n s0 as s es) {t e : Nat} (he : e < n) (hb : o.busy s.obj t = false)
    (ht : Settled (Sched.view (envs (proj e es))) t) : Elsewhere (Sched.view (envs (proj e es))) R t := by
  obtain ⟨bs, s', h1, h2⟩ := h.at he
  exact (C101_idle L h0 h1 h2 rfl t ht).2 hb

theorem stuck {o : Obj S A E} {I : S → Prop} {R n : Nat} (L : Laws o I) {s0 : S} (h0 : I s0) {as : List (Act A)}
    {s : St S} {es : List (Ev E)} (h : Idle o R n s0 as s es) (a : A) (ha : o.inner a = true) : o.step s.obj a = none := by
  cases hb : o.busy s.obj (o.who a) with
  | true => exact (C103_idle L h0 h _ hb).2 a rfl
  | false =>
    have hI : I s.obj := runs_inv I (fun _ _ _ _ hI hs => L.inv hI hs) _ _ _ _ h0 (obj_runs as _ _ _ h.run)
    exact L.outside hI hb ha

end Verif.Compose.Many
