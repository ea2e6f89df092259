import Verif.Sched.EnvProps

/-! # Waiting for a spinlock on one scheduling thread

`co_spinlock::lock` waits by yielding (co_spinlock.cpp:12-18). Whether the holder gets a turn then depends on the scheduler of its env.
The machine of this file is the env of `Verif/Sched/Env.lean` with coroutines that use one spinlock; the coroutines of other envs, which
run in other threads, take and release it as they like. -/

namespace Verif.Sched

/-! ## Facts about one step of the env -/

/-- Proof device: the event changes the priority of `x` or removes it from the env. (Concerns co_spinlock.cpp:12-29.) -/
def touches (x : Nat) : Ev → Bool
  | .setPrio c _ => c == x
  | .gone c => c == x
  | .take cs => decide (x ∈ cs)
  | _ => false

/-- Proof device: the event makes `x` wait or ends it. (Concerns co_spinlock.cpp:12-29.) -/
def stops (x : Nat) : Ev → Bool
  | .enter c _ => c == x
  | .finish c => c == x
  | _ => false

theorem keep_step {s s' : State} {a : Act} {es : List Ev} {x : Nat} (hI : Inv s) (hs : step false s a = some (s', es))
    (ht : ∀ e ∈ es, touches x e = false) (hm : s.mem x = true) (hc : s.chg x = none) :
    s'.mem x = true ∧ s'.chg x = none ∧ (s'.ctx x).prio = (s.ctx x).prio ∧
    ((∀ e ∈ es, stops x e = false) → (s.ctx x).canSchedule = true → (s'.ctx x).canSchedule = true) := by
  cases a with
  | add d v =>
    simp only [step] at hs
    split at hs
    · rename_i hd
      simp only [Option.some.injEq, Prod.mk.injEq] at hs
      obtain ⟨rfl, rfl⟩ := hs
      have hdx : x ≠ d := by rintro rfl; simp [hm] at hd
      simp [set_apply, hdx, hm, hc]
    · simp at hs
  | enter d r =>
    simp only [step] at hs
    split at hs
    · simp only [Option.some.injEq, Prod.mk.injEq] at hs
      obtain ⟨rfl, rfl⟩ := hs
      by_cases hdx : x = d
      · subst hdx; simp [Ctx.enter, hm, hc, stops]
      · simp [set_apply, hdx, hm, hc]
    · simp at hs
  | leave d r =>
    simp only [step] at hs
    split at hs
    · simp only [Option.some.injEq, Prod.mk.injEq] at hs
      obtain ⟨rfl, rfl⟩ := hs
      by_cases hdx : x = d
      · subst hdx
        refine ⟨hm, hc, by simp [Ctx.leave], ?_⟩
        intro _ h
        simp only [set_same, Ctx.leave, Ctx.canSchedule, Bool.and_eq_true, Bool.not_eq_true'] at h ⊢
        refine ⟨h.1, ?_⟩
        split
        · rfl
        · exact h.2
      · simp [set_apply, hdx, hm, hc]
    · simp at hs
  | wake d ph =>
    simp only [step] at hs
    split at hs
    · cases ph <;> simp only at hs <;> repeat' split at hs
      all_goals (simp only [Option.some.injEq, Prod.mk.injEq] at hs; obtain ⟨rfl, rfl⟩ := hs)
      all_goals exact ⟨hm, hc, rfl, fun _ h => h⟩
    · simp at hs
  | setPrio d v self =>
    simp only [step] at hs
    split at hs
    · have hdx : x ≠ d := by
        rintro rfl
        split at hs <;> simp only [Option.some.injEq, Prod.mk.injEq] at hs <;>
          have := ht (.setPrio x v) (by rw [← hs.2]; simp) <;> simp [touches] at this
      split at hs <;> simp only [Option.some.injEq, Prod.mk.injEq] at hs <;> obtain ⟨rfl, rfl⟩ := hs <;> simp [set_apply, hdx, hm, hc]
    · simp at hs
  | erase d =>
    simp only [step] at hs
    split at hs
    · rename_i g hg
      have hdx : x ≠ d := by rintro rfl; rw [hc] at hg; cases hg
      split at hs
      · split at hs <;> simp only [Option.some.injEq, Prod.mk.injEq] at hs <;> obtain ⟨rfl, rfl⟩ := hs <;> simp [set_apply, hdx, hm, hc]
      · simp at hs
    · simp at hs
  | push d =>
    simp only [step] at hs
    split at hs
    · rename_i g hg
      have hdx : x ≠ d := by rintro rfl; rw [hc] at hg; cases hg
      split at hs
      · simp only [Option.some.injEq, Prod.mk.injEq] at hs
        obtain ⟨rfl, rfl⟩ := hs
        simp [State.updMin, set_apply, hdx, hm, hc]
      · simp at hs
    · simp at hs
  | finish d =>
    simp only [step] at hs
    split at hs
    · simp only [Option.some.injEq, Prod.mk.injEq] at hs
      obtain ⟨rfl, rfl⟩ := hs
      by_cases hdx : x = d
      · subst hdx; simp [hm, hc, stops]
      · simp [set_apply, hdx, hm, hc]
    · simp at hs
  | unlock d =>
    simp only [step] at hs
    split at hs
    · simp only [Option.some.injEq, Prod.mk.injEq] at hs
      obtain ⟨rfl, rfl⟩ := hs
      by_cases hdx : x = d
      · subst hdx; simp [hm, hc, Ctx.canSchedule]
      · simp [set_apply, hdx, hm, hc]
    · simp at hs
  | remove d =>
    simp only [step] at hs
    split at hs
    · simp only [Option.some.injEq, Prod.mk.injEq] at hs
      obtain ⟨rfl, rfl⟩ := hs
      have hdx : x ≠ d := by
        rintro rfl
        have := ht (.gone x) (by simp)
        simp [touches] at this
      simp [set_apply, hdx, hm, hc]
    · simp at hs
  | pick =>
    simp only [step] at hs
    split at hs
    · simp only [Option.some.injEq, Prod.mk.injEq] at hs
      obtain ⟨rfl, rfl⟩ := hs
      obtain ⟨f1, f2, f3, f4, f5, f6, f7⟩ := pick_fields s
      have e := pick_ctx (s := s) x
      exact ⟨by rw [f1]; exact hm, by rw [f4]; exact hc, e.1, fun _ h => by rw [e.2.2.2.2.2.2.2]; exact h⟩
    · simp at hs
  | takeAll =>
    simp only [step] at hs
    split at hs
    · simp only [Option.some.injEq, Prod.mk.injEq] at hs
      obtain ⟨rfl, rfl⟩ := hs
      have := ht (.take s.movable) (by simp)
      simp only [touches, decide_eq_false_iff_not] at this
      exact ⟨by simp [State.takeAll, hm, this], hc, rfl, fun _ h => h⟩
    · simp at hs
  | takeOne =>
    simp only [step] at hs
    split at hs
    · split at hs
      · rename_i i d hf
        simp only [Option.some.injEq, Prod.mk.injEq] at hs
        obtain ⟨rfl, rfl⟩ := hs
        have := ht (.take [d]) (by simp)
        simp only [touches, List.mem_singleton, decide_eq_false_iff_not] at this
        exact ⟨by simp [set_apply, this, hm], hc, rfl, fun _ h => h⟩
      · simp only [Option.some.injEq, Prod.mk.injEq] at hs
        obtain ⟨rfl, rfl⟩ := hs
        exact ⟨hm, hc, rfl, fun _ h => h⟩
    · simp at hs

theorem fin_step {s s' : State} {a : Act} {es : List Ev} {x : Nat} (hs : step false s a = some (s', es)) (hm : s.mem x = true)
    (hf : (s.ctx x).st ≠ .finished) (ht : ∀ e ∈ es, stops x e = false) : (s'.ctx x).st ≠ .finished := by
  cases a with
  | add d v =>
    simp only [step] at hs
    split at hs
    · rename_i hd
      simp only [Option.some.injEq, Prod.mk.injEq] at hs
      obtain ⟨rfl, rfl⟩ := hs
      have hdx : x ≠ d := by rintro rfl; simp [hm] at hd
      simpa [set_apply, hdx] using hf
    · simp at hs
  | finish d =>
    simp only [step] at hs
    split at hs
    · simp only [Option.some.injEq, Prod.mk.injEq] at hs
      obtain ⟨rfl, rfl⟩ := hs
      by_cases hdx : x = d
      · subst hdx; simp [stops] at ht
      · simpa [set_apply, hdx] using hf
    · simp at hs
  | pick =>
    simp only [step] at hs
    split at hs
    · simp only [Option.some.injEq, Prod.mk.injEq] at hs
      obtain ⟨rfl, rfl⟩ := hs
      exact fun h => hf ((pick_ctx (s := s) x).2.2.2.2.2.2.1.1 h)
    · simp at hs
  | wake d ph =>
    simp only [step] at hs
    split at hs
    · cases ph <;> simp only at hs <;> repeat' split at hs
      all_goals (simp only [Option.some.injEq, Prod.mk.injEq] at hs; obtain ⟨rfl, rfl⟩ := hs)
      all_goals exact hf
    · simp at hs
  | enter d r | leave d r | setPrio d v self | unlock d =>
    simp only [step] at hs
    repeat' split at hs
    all_goals simp only [Option.some.injEq, Prod.mk.injEq, reduceCtorEq] at hs
    all_goals obtain ⟨rfl, rfl⟩ := hs
    all_goals (by_cases hdx : x = d <;> simpa [set_apply, hdx, Ctx.enter, Ctx.leave] using hf)
  | _ =>
    simp only [step] at hs
    repeat' split at hs
    all_goals simp only [Option.some.injEq, Prod.mk.injEq, reduceCtorEq] at hs
    all_goals (obtain ⟨rfl, rfl⟩ := hs; exact hf)

/-- Nothing but a pick raises `min_priority__` or changes the running coroutine. -/
theorem min_step {s s' : State} {a : Act} {es : List Ev} (ha : a ≠ .pick) (hs : step false s a = some (s', es)) :
    s'.min ≤ s.min ∧ s'.curr = s.curr ∧ ∀ o, Ev.pick o ∉ es := by
  cases a with
  | pick => exact absurd rfl ha
  | wake d ph =>
    simp only [step] at hs
    split at hs
    · cases ph <;> simp only at hs <;> repeat' split at hs
      all_goals (simp only [Option.some.injEq, Prod.mk.injEq] at hs; obtain ⟨rfl, rfl⟩ := hs)
      all_goals simp only [State.updMin]
      all_goals refine ⟨?_, by trivial, by simp⟩
      all_goals first | exact Nat.le_refl _ | (split <;> omega)
    · simp at hs
  | push d =>
    simp only [step] at hs
    repeat' split at hs
    all_goals simp only [Option.some.injEq, Prod.mk.injEq, reduceCtorEq] at hs
    obtain ⟨rfl, rfl⟩ := hs
    simp only [State.updMin]
    refine ⟨?_, by trivial, by simp⟩
    split <;> omega
  | _ =>
    simp only [step] at hs
    repeat' split at hs
    all_goals simp only [Option.some.injEq, Prod.mk.injEq, reduceCtorEq] at hs
    all_goals (obtain ⟨rfl, rfl⟩ := hs; exact ⟨Nat.le_refl _, rfl, by simp⟩)

/-- Proof device: `w` can run and has better priority than `h`. (Concerns co_spinlock.cpp:12-29.) -/
structure Starve (w h : Nat) (s : State) : Prop where
  inv : Inv s
  memw : s.mem w = true
  memh : s.mem h = true
  chgw : s.chg w = none
  chgh : s.chg h = none
  can : (s.ctx w).canSchedule = true
  lt : (s.ctx w).prio < (s.ctx h).prio
  min : s.min ≤ (s.ctx w).prio

theorem starve_step {w h : Nat} {s s' : State} {a : Act} {es : List Ev} (hS : Starve w h s) (hs : step false s a = some (s', es))
    (ht : ∀ e ∈ es, touches w e = false ∧ touches h e = false ∧ stops w e = false) : Starve w h s' ∧ Ev.pick (some h) ∉ es := by
  obtain ⟨w1, w2, w3, w4⟩ := keep_step hS.inv hs (fun e he => (ht e he).1) hS.memw hS.chgw
  obtain ⟨h1, h2, h3, _⟩ := keep_step hS.inv hs (fun e he => (ht e he).2.1) hS.memh hS.chgh
  have w5 := w4 (fun e he => (ht e he).2.2) hS.can
  have hI' := inv_step hS.inv hs
  by_cases ha : a = .pick
  · subst ha
    simp only [step] at hs
    split at hs
    · simp only [Option.some.injEq, Prod.mk.injEq] at hs
      obtain ⟨rfl, rfl⟩ := hs
      have hlw : w ∈ s.lists (s.ctx w).prio := hS.inv.mem_list.2 ⟨hS.memw, erased_none hS.chgw, (lp_none hS.chgw).symm⟩
      cases hse : s.search with
      | none =>
        have := search_none hse _ hS.min (hS.inv.lt w hS.memw).1 w hlw
        rw [hS.can] at this; cases this
      | some r =>
        obtain ⟨i, d⟩ := r
        obtain ⟨g1, g2, g3, g4, g5, g6⟩ := search_some hse
        have hi : i ≤ (s.ctx w).prio := by
          by_cases hi : i ≤ (s.ctx w).prio
          · exact hi
          · have := g6 _ hS.min (by omega) w hlw
            rw [hS.can] at this; cases this
        have hp : s.pick.2 = some d := by simp [State.pick, hse]
        refine ⟨⟨hI', w1, h1, w2, h2, w5, by rw [w3, h3]; exact hS.lt, ?_⟩, ?_⟩
        · rw [w3]; simp only [State.pick, hse]; exact hi
        · rw [hp]
          simp only [List.mem_singleton, Ev.pick.injEq, Option.some.injEq]
          rintro rfl
          have := (hS.inv.mem_list.1 g3).2.2
          rw [lp_none hS.chgh] at this
          have := hS.lt
          omega
    · simp at hs
  · obtain ⟨m1, m2, m3⟩ := min_step ha hs
    exact ⟨⟨hI', w1, h1, w2, h2, w5, by rw [w3, h3]; exact hS.lt, by rw [w3]; exact Nat.le_trans m1 hS.min⟩, m3 _⟩

/-- What `touches` can be, read from the state before. -/
theorem gone_fin {s s' : State} {a : Act} {es : List Ev} {x : Nat} (hs : step false s a = some (s', es)) (he : Ev.gone x ∈ es) :
    (s.ctx x).st = .finished := by
  cases a with
  | wake d ph =>
    simp only [step] at hs
    split at hs
    · cases ph <;> simp only at hs <;> repeat' split at hs
      all_goals (simp only [Option.some.injEq, Prod.mk.injEq] at hs; obtain ⟨rfl, rfl⟩ := hs; simp at he)
    · simp at hs
  | remove d =>
    simp only [step] at hs
    split at hs
    · rename_i hd
      simp only [Option.some.injEq, Prod.mk.injEq] at hs
      obtain ⟨rfl, rfl⟩ := hs
      simp only [List.mem_singleton, Ev.gone.injEq] at he
      subst he
      exact hd.2.2.1
    · simp at hs
  | _ =>
    simp only [step] at hs
    repeat' split at hs
    all_goals simp only [Option.some.injEq, Prod.mk.injEq, reduceCtorEq] at hs
    all_goals (obtain ⟨rfl, rfl⟩ := hs; simp at he)

/-- Only the running coroutine finishes or starts to wait, and only its own action does it. -/
theorem stops_act {s s' : State} {a : Act} {es : List Ev} {x : Nat} (hs : step false s a = some (s', es)) {e : Ev} (he : e ∈ es)
    (hx : stops x e = true) : s.curr = some x ∧ ((∃ r, a = .enter x r) ∨ a = .finish x) := by
  cases a with
  | wake d ph =>
    simp only [step] at hs
    split at hs
    · cases ph <;> simp only at hs <;> repeat' split at hs
      all_goals (simp only [Option.some.injEq, Prod.mk.injEq] at hs; obtain ⟨rfl, rfl⟩ := hs)
      all_goals simp only [List.mem_cons, List.not_mem_nil, or_false] at he
      all_goals (first | exact he.elim | skip)
      all_goals (rcases he with rfl | rfl <;> simp [stops] at hx)
    · simp at hs
  | enter d r =>
    simp only [step] at hs
    split at hs
    · rename_i hd
      simp only [Option.some.injEq, Prod.mk.injEq] at hs
      obtain ⟨rfl, rfl⟩ := hs
      simp only [List.mem_singleton] at he
      subst he
      simp only [stops, beq_iff_eq] at hx
      subst hx
      exact ⟨hd.1, .inl ⟨r, rfl⟩⟩
    · simp at hs
  | finish d =>
    simp only [step] at hs
    split at hs
    · rename_i hd
      simp only [Option.some.injEq, Prod.mk.injEq] at hs
      obtain ⟨rfl, rfl⟩ := hs
      simp only [List.mem_singleton] at he
      subst he
      simp only [stops, beq_iff_eq] at hx
      subst hx
      exact ⟨hd.1, .inr rfl⟩
    · simp at hs
  | _ =>
    simp only [step] at hs
    repeat' split at hs
    all_goals simp only [Option.some.injEq, Prod.mk.injEq, reduceCtorEq] at hs
    all_goals (obtain ⟨rfl, rfl⟩ := hs; simp only [List.mem_cons, List.not_mem_nil, or_false] at he)
    all_goals (first | exact he.elim | skip)
    all_goals (first | (rcases he with rfl | rfl <;> simp [stops] at hx) | (subst he; simp [stops] at hx))

end Verif.Sched

namespace Verif.Inversion

open Verif.Sched

/-! ## Coroutines that use one spinlock -/

/-- Where a coroutine stands: not using the lock, inside `lock()`, between `lock()` and `unlock()`. (co_spinlock.cpp:12-28.) -/
inductive Pc
  | out
  | want
  | inside
deriving DecidableEq, Repr

/-- The env, the flag `locked__` (co_spinlock.h:13) with the coroutine that set it, and where every coroutine stands. -/
structure Sys where
  env : State
  lock : Option Nat
  pc : Nat → Pc

/-- A fresh env and a free lock. (Concerns co_spinlock.cpp:12-29.) -/
def Sys.init : Sys := ⟨State.init, none, fun _ => .out⟩

/-- Events: those of the env; a call of `lock()`; its return; `unlock()`; a `test_and_set` that found the lock taken. (Concerns co_spinlock.cpp:12-29.) -/
inductive SEv
  | env (e : Ev)
  | call (c : Nat)
  | acq (c : Nat)
  | rel (c : Nat)
  | fail (c : Nat)
deriving DecidableEq, Repr

/-- Choices. (Concerns co_spinlock.cpp:12-29.) -/
inductive SAct
  /-- anything that happens in the env but the choice of the next coroutine -/
  | env (a : Act)
  /-- `schedule_switch`, called by the running coroutine or by the preemption signal -/
  | switch
  | call (c : Nat)
  /-- one turn of the loop in `lock()` -/
  | tas (c : Nat)
  | rel (c : Nat)
deriving DecidableEq, Repr

/-- What the running coroutine does itself it does not do while it is inside `lock()`. (Concerns co_spinlock.cpp:12-29.) -/
def allowed (x : Sys) : Act → Bool
  | .enter c _ => x.pc c != .want
  | .finish c => x.pc c != .want
  | .setPrio c _ true => x.pc c != .want
  | .pick => false
  | _ => true

/-- Coroutine `c` can execute code of its function: it is the running one, or it is in another env (where it may run at any time),
and it is not in the middle of its own `set_priority`. (Concerns co_spinlock.cpp:12-29.) -/
def runs? (x : Sys) (c : Nat) : Bool :=
  ((decide (x.env.curr = some c) && decide ((x.env.ctx c).st ≠ .finished)) || (!x.env.mem c && !x.env.dead c)) &&
    (x.env.chg c).all (fun g => !g.self)

/-- One step. `tas` is co_spinlock.cpp:14-17: `test_and_set`, and `CoYield()` (co_define.h:121) if the lock was taken; `rel` is
co_spinlock.cpp:26-29. Simplification: no preemption between a failed `test_and_set` and the yield (a preemption there is two
switches in a row). -/
def sstep (x : Sys) : SAct → Option (Sys × List SEv)
  | .env a =>
    if allowed x a = true then (step false x.env a).map fun r => ({ x with env := r.1 }, r.2.map .env) else none
  | .switch => (step false x.env .pick).map fun r => ({ x with env := r.1 }, r.2.map .env)
  | .call c => if runs? x c = true ∧ x.pc c = .out then some ({ x with pc := upd x.pc c .want }, [.call c]) else none
  | .tas c =>
    if runs? x c = true ∧ x.pc c = .want then
      match x.lock with
      | none => some ({ x with lock := some c, pc := upd x.pc c .inside }, [.acq c])
      | some _ =>
        if x.env.mem c = true then
          (step false x.env .pick).map fun r => ({ x with env := r.1 }, .fail c :: r.2.map .env)
        else some (x, [.fail c])
    else none
  | .rel c =>
    if runs? x c = true ∧ x.pc c = .inside then some ({ x with lock := none, pc := upd x.pc c .out }, [.rel c]) else none

/-- The events of the env in a history. (Concerns co_spinlock.cpp:12-29.) -/
def envOf : List SEv → List Ev
  | [] => []
  | .env e :: es => e :: envOf es
  | _ :: es => envOf es

/-- Who has the lock, by the history: the last one to acquire it, unless released since. (Concerns co_spinlock.cpp:12-29.) -/
def owner : List SEv → Option Nat :=
  List.foldl (fun o e => match e with
    | .acq c => some c
    | .rel _ => none
    | _ => o) none

/-- Is `c` inside `lock()`, by the history? (Concerns co_spinlock.cpp:12-29.) -/
def waits (c : Nat) : List SEv → Bool :=
  List.foldl (fun b e => match e with
    | .call d => if d = c then true else b
    | .acq d => if d = c then false else b
    | _ => b) false

theorem envOf_append (a b : List SEv) : envOf (a ++ b) = envOf a ++ envOf b := by
  induction a with
  | nil => rfl
  | cons e a ih => cases e <;> simp [envOf, ih]

theorem envOf_map (es : List Ev) : envOf (es.map .env) = es := by
  induction es with
  | nil => rfl
  | cons e es ih => simp [envOf, ih]

theorem mem_envOf {e : Ev} {es : List SEv} : e ∈ envOf es ↔ SEv.env e ∈ es := by
  induction es with
  | nil => simp [envOf]
  | cons f es ih => cases f <;> simp [envOf, ih]

theorem owner_append (a b : List SEv) : owner (a ++ b) = b.foldl (fun o e => match e with
    | .acq c => some c
    | .rel _ => none
    | _ => o) (owner a) := by simp [owner]

theorem waits_append (c : Nat) (a b : List SEv) : waits c (a ++ b) = b.foldl (fun o e => match e with
    | .call d => if d = c then true else o
    | .acq d => if d = c then false else o
    | _ => o) (waits c a) := by simp [waits]

theorem fold_owner_env (es : List Ev) (o : Option Nat) : (es.map SEv.env).foldl (fun o e => match e with
    | .acq c => some c
    | .rel _ => none
    | _ => o) o = o := by
  induction es with
  | nil => rfl
  | cons e es ih => simpa using ih

theorem fold_waits_env (c : Nat) (es : List Ev) (o : Bool) : (es.map SEv.env).foldl (fun o e => match e with
    | .call d => if d = c then true else o
    | .acq d => if d = c then false else o
    | _ => o) o = o := by
  induction es with
  | nil => rfl
  | cons e es ih => simpa using ih

/-- A step of the system is at most one step of the env. -/
theorem step_env {x x' : Sys} {a : SAct} {es : List SEv} (h : sstep x a = some (x', es)) :
    (x'.env = x.env ∧ envOf es = []) ∨ ∃ b, step false x.env b = some (x'.env, envOf es) := by
  cases a with
  | env b =>
    simp only [sstep] at h
    split at h
    · simp only [Option.map_eq_some_iff, Prod.mk.injEq] at h
      obtain ⟨r, hr, rfl, rfl⟩ := h
      exact .inr ⟨b, by rw [envOf_map]; exact hr⟩
    · simp at h
  | switch =>
    simp only [sstep, Option.map_eq_some_iff, Prod.mk.injEq] at h
    obtain ⟨r, hr, rfl, rfl⟩ := h
    exact .inr ⟨.pick, by rw [envOf_map]; exact hr⟩
  | call c =>
    simp only [sstep] at h
    split at h
    · simp only [Option.some.injEq, Prod.mk.injEq] at h
      obtain ⟨rfl, rfl⟩ := h
      exact .inl ⟨rfl, rfl⟩
    · simp at h
  | tas c =>
    simp only [sstep] at h
    split at h
    · split at h
      · simp only [Option.some.injEq, Prod.mk.injEq] at h
        obtain ⟨rfl, rfl⟩ := h
        exact .inl ⟨rfl, rfl⟩
      · split at h
        · simp only [Option.map_eq_some_iff, Prod.mk.injEq] at h
          obtain ⟨r, hr, rfl, rfl⟩ := h
          exact .inr ⟨.pick, by simp only [envOf, envOf_map]; exact hr⟩
        · simp only [Option.some.injEq, Prod.mk.injEq] at h
          obtain ⟨rfl, rfl⟩ := h
          exact .inl ⟨rfl, rfl⟩
    · simp at h
  | rel c =>
    simp only [sstep] at h
    split at h
    · simp only [Option.some.injEq, Prod.mk.injEq] at h
      obtain ⟨rfl, rfl⟩ := h
      exact .inl ⟨rfl, rfl⟩
    · simp at h

theorem runs_env : ∀ (as : List SAct) (x x' : Sys) (es : List SEv), runs sstep x as = some (x', es) →
    ∃ bs, runs (step false) x.env bs = some (x'.env, envOf es)
  | [], x, x', es, h => by
    simp only [runs, Option.some.injEq, Prod.mk.injEq] at h
    obtain ⟨rfl, rfl⟩ := h
    exact ⟨[], rfl⟩
  | a :: as, x, x', es, h => by
    obtain ⟨u, g1, g2, k1, k2, rfl⟩ := runs_cons h
    obtain ⟨bs, hb⟩ := runs_env as u x' g2 k2
    rw [envOf_append]
    rcases step_env k1 with ⟨h1, h2⟩ | ⟨b, h1⟩
    · exact ⟨bs, by rw [h2, ← h1]; exact hb⟩
    · refine ⟨b :: bs, ?_⟩
      simp only [runs, h1, hb]

/-- Proof device: the history and the state agree. (Concerns co_spinlock.cpp:12-29.) -/
structure Ok (x : Sys) (tr : List SEv) : Prop where
  inv : Inv x.env
  agree : Agree x.env (view (envOf tr))
  lock : x.lock = owner tr
  waits : ∀ c, waits c tr = decide (x.pc c = .want)
  owns : ∀ c, x.pc c = .inside ↔ x.lock = some c

theorem ok_step {x x' : Sys} {a : SAct} {es tr : List SEv} (h : Ok x tr) (hs : sstep x a = some (x', es)) : Ok x' (tr ++ es) := by
  have hE : Inv x'.env ∧ Agree x'.env (view (envOf (tr ++ es))) := by
    rw [envOf_append]
    rcases step_env hs with ⟨h1, h2⟩ | ⟨b, h1⟩
    · rw [h1, h2, List.append_nil]; exact ⟨h.inv, h.agree⟩
    · exact ⟨inv_step h.inv h1, by rw [view_append]; exact agree_step h.inv h.agree h1⟩
  cases a with
  | env b =>
    simp only [sstep] at hs
    split at hs
    · simp only [Option.map_eq_some_iff, Prod.mk.injEq] at hs
      obtain ⟨r, hr, rfl, rfl⟩ := hs
      exact ⟨hE.1, hE.2, by rw [owner_append, fold_owner_env]; exact h.lock,
        fun c => by rw [waits_append, fold_waits_env]; exact h.waits c, h.owns⟩
    · simp at hs
  | switch =>
    simp only [sstep, Option.map_eq_some_iff, Prod.mk.injEq] at hs
    obtain ⟨r, hr, rfl, rfl⟩ := hs
    exact ⟨hE.1, hE.2, by rw [owner_append, fold_owner_env]; exact h.lock,
      fun c => by rw [waits_append, fold_waits_env]; exact h.waits c, h.owns⟩
  | call c =>
    simp only [sstep] at hs
    split at hs
    · rename_i hc
      simp only [Option.some.injEq, Prod.mk.injEq] at hs
      obtain ⟨rfl, rfl⟩ := hs
      refine ⟨hE.1, hE.2, by rw [owner_append]; exact h.lock, fun d => ?_, fun d => ?_⟩
      · rw [waits_append]
        by_cases hd : d = c
        · subst hd; simp
        · simp [Ne.symm hd, upd_other _ _ hd, h.waits d]
      · by_cases hd : d = c
        · subst hd
          have := h.owns d
          simp only [upd_same, reduceCtorEq, false_iff]
          rw [← this, hc.2]; simp
        · simp only [upd_other _ _ hd]; exact h.owns d
    · simp at hs
  | tas c =>
    simp only [sstep] at hs
    split at hs
    · rename_i hc
      split at hs
      · rename_i hl
        simp only [Option.some.injEq, Prod.mk.injEq] at hs
        obtain ⟨rfl, rfl⟩ := hs
        refine ⟨hE.1, hE.2, by rw [owner_append]; rfl, fun d => ?_, fun d => ?_⟩
        · rw [waits_append]
          by_cases hd : d = c
          · subst hd; simp
          · simp [Ne.symm hd, upd_other _ _ hd, h.waits d]
        · by_cases hd : d = c
          · subst hd; simp
          · have := h.owns d
            rw [hl] at this
            simp only [upd_other _ _ hd, this, Option.some.injEq, reduceCtorEq, false_iff]
            exact fun e => hd e.symm
      · split at hs
        · simp only [Option.map_eq_some_iff, Prod.mk.injEq] at hs
          obtain ⟨r, hr, rfl, rfl⟩ := hs
          exact ⟨hE.1, hE.2, by rw [owner_append, List.foldl_cons, fold_owner_env]; exact h.lock,
            fun c => by rw [waits_append, List.foldl_cons, fold_waits_env]; exact h.waits c, h.owns⟩
        · simp only [Option.some.injEq, Prod.mk.injEq] at hs
          obtain ⟨rfl, rfl⟩ := hs
          exact ⟨hE.1, hE.2, by rw [owner_append]; exact h.lock, fun c => by rw [waits_append]; exact h.waits c, h.owns⟩
    · simp at hs
  | rel c =>
    simp only [sstep] at hs
    split at hs
    · rename_i hc
      simp only [Option.some.injEq, Prod.mk.injEq] at hs
      obtain ⟨rfl, rfl⟩ := hs
      refine ⟨hE.1, hE.2, by rw [owner_append]; rfl, fun d => ?_, fun d => ?_⟩
      · rw [waits_append]
        by_cases hd : d = c
        · subst hd; simp [h.waits d, hc.2]
        · simp [upd_other _ _ hd, h.waits d]
      · by_cases hd : d = c
        · subst hd; simp
        · have h1 := (h.owns c).1 hc.2
          have := h.owns d
          rw [h1] at this
          simp only [upd_other _ _ hd, this, Option.some.injEq, reduceCtorEq, iff_false]
          exact fun e => hd e.symm
    · simp at hs

theorem ok_runs {as : List SAct} {x : Sys} {tr : List SEv} (h : runs sstep Sys.init as = some (x, tr)) : Ok x tr := by
  have := runs_hist (step := sstep) Ok (fun s a s' es tr hI hs => ok_step hI hs) as Sys.init x tr []
    ⟨inv_init, agree_init, rfl, fun c => rfl, fun c => by simp [Sys.init]⟩ h
  simpa using this

/-- Proof device: the holder `h` waits for a turn behind `w`, which is inside `lock()`. (Concerns co_spinlock.cpp:12-29.) -/
structure Stuck (w h : Nat) (x : Sys) : Prop where
  st : Starve w h x.env
  want : x.pc w = .want
  lock : x.lock = some h
  held : x.pc h = .inside
  only : ∀ c, x.pc c = .inside → c = h
  curr : x.env.curr ≠ some h
  fin : (x.env.ctx h).st ≠ .finished

/-- Proof device: an outside intervention, a priority change or a migration of `w` or `h`. (Concerns co_spinlock.cpp:12-29.) -/
def rescue (w h : Nat) : Ev → Bool
  | .setPrio c _ => c == w || c == h
  | .take cs => decide (w ∈ cs) || decide (h ∈ cs)
  | _ => false

theorem pick_curr (s : State) : s.pick.1.curr = s.pick.2 := by
  simp only [State.pick]; split <;> rfl

theorem starve_env {w h : Nat} {s s' : State} {a : Act} {es : List Ev} (hS : Starve w h s) (hc : s.curr ≠ some h)
    (hf : (s.ctx h).st ≠ .finished) (hs : step false s a = some (s', es)) (hr : ∀ e ∈ es, rescue w h e = false)
    (hw : ∀ e ∈ es, stops w e = false) :
    Starve w h s' ∧ s'.curr ≠ some h ∧ (s'.ctx h).st ≠ .finished ∧ Ev.pick (some h) ∉ es := by
  have ht : ∀ e ∈ es, touches w e = false ∧ touches h e = false ∧ stops w e = false := by
    intro e he
    have h1 := hr e he
    have h2 := hw e he
    cases e with
    | setPrio c v =>
      simp only [rescue, Bool.or_eq_false_iff] at h1
      exact ⟨h1.1, h1.2, rfl⟩
    | take cs =>
      simp only [rescue, Bool.or_eq_false_iff] at h1
      exact ⟨h1.1, h1.2, rfl⟩
    | gone c =>
      have hg := gone_fin hs he
      have : (s.ctx w).st ≠ .finished := by
        have := hS.can
        simp only [Ctx.canSchedule, Bool.and_eq_true] at this
        simpa using this.1
      refine ⟨?_, ?_, h2⟩ <;> simp only [touches, beq_eq_false_iff_ne, ne_eq] <;> rintro rfl
      · exact this hg
      · exact hf hg
    | _ => exact ⟨rfl, rfl, h2⟩
  obtain ⟨k1, k2⟩ := starve_step hS hs ht
  refine ⟨k1, ?_, ?_, k2⟩
  · by_cases ha : a = .pick
    · subst ha
      simp only [step] at hs
      split at hs
      · simp only [Option.some.injEq, Prod.mk.injEq] at hs
        obtain ⟨rfl, rfl⟩ := hs
        rw [pick_curr]
        intro e
        rw [e] at k2
        simp at k2
      · simp at hs
    · rw [(min_step ha hs).2.1]; exact hc
  · intro hfin
    refine absurd hfin (fin_step hs hS.memh hf (fun e he => ?_))
    cases hst : stops h e with
    | false => rfl
    | true => exact absurd (stops_act hs he hst).1 hc

theorem pick_evs {s s' : State} {es : List Ev} (hs : step false s .pick = some (s', es)) : es = [.pick s'.curr] ∧ s' = s.pick.1 := by
  simp only [step] at hs
  split at hs
  · simp only [Option.some.injEq, Prod.mk.injEq] at hs
    obtain ⟨rfl, rfl⟩ := hs
    rw [pick_curr]
    exact ⟨rfl, rfl⟩
  · simp at hs

theorem stuck_step {w h : Nat} {x x' : Sys} {a : SAct} {es : List SEv} (hS : Stuck w h x) (hs : sstep x a = some (x', es))
    (hr : ∀ e, SEv.env e ∈ es → rescue w h e = false) :
    Stuck w h x' ∧ (∀ c, SEv.acq c ∉ es) ∧ (∀ c, SEv.rel c ∉ es) ∧ SEv.env (.pick (some h)) ∉ es := by
  have hpick : ∀ r, step false x.env .pick = some r → ∀ e ∈ r.2, stops w e = false := by
    intro r hr e he
    rw [(pick_evs hr).1, List.mem_singleton] at he
    subst he; rfl
  cases a with
  | env b =>
    simp only [sstep] at hs
    split at hs
    · rename_i hal
      simp only [Option.map_eq_some_iff, Prod.mk.injEq] at hs
      obtain ⟨r, hb, rfl, rfl⟩ := hs
      have hw : ∀ e ∈ r.2, stops w e = false := by
        intro e he
        cases hst : stops w e with
        | false => rfl
        | true =>
          obtain ⟨_, ⟨r, rfl⟩ | rfl⟩ := stops_act hb he hst <;> simp [allowed, hS.want] at hal
      obtain ⟨k1, k2, k3, k4⟩ := starve_env hS.st hS.curr hS.fin hb (fun e he => hr e (by simp [he])) hw
      exact ⟨⟨k1, hS.want, hS.lock, hS.held, hS.only, k2, k3⟩, by simp, by simp, by simpa using k4⟩
    · simp at hs
  | switch =>
    simp only [sstep, Option.map_eq_some_iff, Prod.mk.injEq] at hs
    obtain ⟨r, hb, rfl, rfl⟩ := hs
    obtain ⟨k1, k2, k3, k4⟩ := starve_env hS.st hS.curr hS.fin hb (fun e he => hr e (by simp [he])) (hpick r hb)
    exact ⟨⟨k1, hS.want, hS.lock, hS.held, hS.only, k2, k3⟩, by simp, by simp, by simpa using k4⟩
  | call c =>
    simp only [sstep] at hs
    split at hs
    · rename_i hc
      simp only [Option.some.injEq, Prod.mk.injEq] at hs
      obtain ⟨rfl, rfl⟩ := hs
      have hcw : w ≠ c := by rintro rfl; have := hS.want; rw [hc.2] at this; cases this
      have hch : h ≠ c := by rintro rfl; have := hS.held; rw [hc.2] at this; cases this
      refine ⟨⟨hS.st, by simp only [upd_other _ _ hcw]; exact hS.want, hS.lock, by simp only [upd_other _ _ hch]; exact hS.held, ?_,
        hS.curr, hS.fin⟩, by simp, by simp, by simp⟩
      intro d hd
      by_cases hdc : d = c
      · subst hdc; simp at hd
      · exact hS.only d (by simpa only [upd_other _ _ hdc] using hd)
    · simp at hs
  | tas c =>
    simp only [sstep, hS.lock] at hs
    split at hs
    · split at hs
      · simp only [Option.map_eq_some_iff, Prod.mk.injEq] at hs
        obtain ⟨r, hb, rfl, rfl⟩ := hs
        obtain ⟨k1, k2, k3, k4⟩ := starve_env hS.st hS.curr hS.fin hb (fun e he => hr e (by simp [he])) (hpick r hb)
        exact ⟨⟨k1, hS.want, rfl, hS.held, hS.only, k2, k3⟩, by simp, by simp, by simpa using k4⟩
      · simp only [Option.some.injEq, Prod.mk.injEq] at hs
        obtain ⟨rfl, rfl⟩ := hs
        exact ⟨hS, by simp, by simp, by simp⟩
    · simp at hs
  | rel c =>
    simp only [sstep] at hs
    split at hs
    · rename_i hc
      have := hS.only c hc.2
      subst this
      have := hc.1
      simp [runs?, hS.curr, hS.st.memh] at this
    · simp at hs

theorem stuck_runs {w h : Nat} : ∀ (as : List SAct) (x x' : Sys) (es : List SEv), Stuck w h x → runs sstep x as = some (x', es) →
    (∀ e, SEv.env e ∈ es → rescue w h e = false) →
    Stuck w h x' ∧ (∀ c, SEv.acq c ∉ es) ∧ (∀ c, SEv.rel c ∉ es) ∧ SEv.env (.pick (some h)) ∉ es
  | [], x, x', es, hS, hr, _ => by
    simp only [runs, Option.some.injEq, Prod.mk.injEq] at hr
    obtain ⟨rfl, rfl⟩ := hr
    exact ⟨hS, by simp, by simp, by simp⟩
  | a :: as, x, x', es, hS, hr, hres => by
    obtain ⟨u, g1, g2, k1, k2, rfl⟩ := runs_cons hr
    obtain ⟨m1, m2, m3, m4⟩ := stuck_step hS k1 (fun e he => hres e (by simp [he]))
    obtain ⟨n1, n2, n3, n4⟩ := stuck_runs as u x' g2 m1 k2 (fun e he => hres e (by simp [he]))
    refine ⟨n1, fun c => ?_, fun c => ?_, ?_⟩ <;> rw [List.mem_append, not_or]
    · exact ⟨m2 c, n2 c⟩
    · exact ⟨m3 c, n3 c⟩
    · exact ⟨m4, n4⟩

theorem min_le {s : State} {v : View} {w : Nat} (hI : Inv s) (hA : Agree s v) (hr : v.runnable w) (hw : v.wake w = 0)
    (hp : v.prioOp w = 0) : s.chg w = none ∧ s.min ≤ (s.ctx w).prio := by
  rw [runnable_iff hI hA] at hr
  rw [hA.wake] at hw
  have hg : s.chg w = none := by
    rw [hA.prioOp] at hp
    cases hg : s.chg w with
    | none => rfl
    | some g => rw [hg] at hp; simp at hp
  have hnp : ∀ ph, (w, ph) ∉ s.pend := fun ph hph => by have := wakes_pos hph; omega
  refine ⟨hg, ?_⟩
  rcases hI.hint w hr.1 hr.2 hg with h1 | h1 | h1 | ⟨p, _, h1⟩
  · exact h1
  · exact absurd h1 (hnp _)
  · exact absurd h1 (hnp _)
  · exact absurd h1 (hnp _)

/-- **C98 (negation)**: coroutine `w` is inside `lock()`, the lock is held by an unfinished coroutine `h` of the same env that is
not the running one, and `w` has the better priority; no wake-up of `w` and no priority change of either is in progress. Then
whatever happens, as long as nobody changes the priority of one of them and none of them is moved to another env, `h` never runs
again, the lock is never released or acquired, and `w` never returns from `lock()`. -/
theorem C98_holder_starved {as : List SAct} {x : Sys} {tr : List SEv} (hx : runs sstep Sys.init as = some (x, tr)) {w h : Nat}
    (hw : waits w tr = true) (hh : owner tr = some h) (hrun : (view (envOf tr)).runnable w) (hmem : (view (envOf tr)).mem h = true)
    (hfin : (view (envOf tr)).fin h = false) (hcur : (view (envOf tr)).last ≠ some h)
    (hlt : (view (envOf tr)).prio w < (view (envOf tr)).prio h) (hwk : (view (envOf tr)).wake w = 0)
    (hop : (view (envOf tr)).prioOp w = 0 ∧ (view (envOf tr)).prioOp h = 0)
    {bs : List SAct} {x' : Sys} {es : List SEv} (hy : runs sstep x bs = some (x', es))
    (hset : ∀ v, SEv.env (.setPrio w v) ∉ es ∧ SEv.env (.setPrio h v) ∉ es)
    (htake : ∀ cs, SEv.env (.take cs) ∈ es → w ∉ cs ∧ h ∉ cs) :
    SEv.env (.pick (some h)) ∉ es ∧ (∀ c, SEv.acq c ∉ es ∧ SEv.rel c ∉ es) ∧ owner (tr ++ es) = some h ∧
      waits w (tr ++ es) = true := by
  have hO := ok_runs hx
  obtain ⟨g1, g2⟩ := min_le hO.inv hO.agree hrun hwk hop.1
  have r := (runnable_iff hO.inv hO.agree w).1 hrun
  have hm : x.env.mem h = true := by rw [← hO.agree.mem]; exact hmem
  have gh : x.env.chg h = none := by
    have := hop.2
    rw [hO.agree.prioOp] at this
    cases hg : x.env.chg h with
    | none => rfl
    | some g => rw [hg] at this; simp at this
  have hS : Stuck w h x := by
    refine ⟨⟨hO.inv, r.1, hm, g1, gh, r.2, ?_, g2⟩, ?_, hO.lock.trans hh, (hO.owns h).2 (hO.lock.trans hh), ?_, ?_, ?_⟩
    · rw [← hO.agree.prio w r.1, ← hO.agree.prio h hm]; exact hlt
    · have := hO.waits w
      rw [hw] at this
      simpa using this.symm
    · intro c hc
      have := (hO.owns c).1 hc
      rw [hO.lock, hh] at this
      simpa using this.symm
    · rw [← hO.agree.last]; exact hcur
    · have := hO.agree.fin h hm
      rw [hfin] at this
      simpa using this.symm
  obtain ⟨m1, m2, m3, m4⟩ := stuck_runs bs x x' es hS hy (by
    intro e he
    cases e with
    | setPrio c v =>
      simp only [rescue, Bool.or_eq_false_iff, beq_eq_false_iff_ne]
      exact ⟨fun e => (hset v).1 (e ▸ he), fun e => (hset v).2 (e ▸ he)⟩
    | take cs =>
      simp only [rescue, Bool.or_eq_false_iff, decide_eq_false_iff_not]
      exact htake cs he
    | _ => rfl)
  have hO' := ok_runs (runs_append hx hy)
  exact ⟨m4, fun c => ⟨m2 c, m3 c⟩, by rw [← hO'.lock]; exact m1.lock, by rw [hO'.waits]; simp [m1.want]⟩

/-- The schedule of the example: coroutine 2 (priority 9) takes the lock; coroutine 1 (priority 5) arrives, the timer thread
preempts 2, and 1 calls `lock()`. (Concerns co_spinlock.cpp:12-29.) -/
def demo : List SAct :=
  (addAll 2 9).map .env ++ [.switch, .call 2, .tas 2] ++ (addAll 1 5).map .env ++ [.switch, .call 1, .tas 1, .tas 1, .tas 1]

/-- Non-trivial case: a history that meets the hypotheses of `C98_holder_starved`; 1 has already tried three times. -/
example : (runs sstep Sys.init demo).map (fun p => (waits 1 p.2, owner p.2, p.2.count (.fail 1), (view (envOf p.2)).last)) =
      some (true, some 2, 3, some 1) ∧
    (runs sstep Sys.init demo).map (fun p => (decide ((view (envOf p.2)).prio 1 < (view (envOf p.2)).prio 2),
      (view (envOf p.2)).wake 1, (view (envOf p.2)).prioOp 1, (view (envOf p.2)).prioOp 2)) = some (true, 0, 0, 0) ∧
    (runs sstep Sys.init demo).map (fun p => ((view (envOf p.2)).mem 1, (view (envOf p.2)).fin 1, (view (envOf p.2)).waits 1,
      (view (envOf p.2)).mem 2, (view (envOf p.2)).fin 2)) = some (true, false, [], true, false) := by
  refine ⟨?_, ?_, ?_⟩ <;> rfl

/-- From there the turns of the loop go on for ever: for every `n` there is an execution with `n` more of them. -/
theorem C98_spins_for_ever (n : Nat) : ∃ as x tr, runs sstep Sys.init as = some (x, tr) ∧ tr.count (.fail 1) = n ∧
    owner tr = some 2 ∧ waits 1 tr = true := by
  have key : ∀ n, ∃ as x tr, runs sstep Sys.init as = some (x, tr) ∧ tr.count (.fail 1) = n ∧ owner tr = some 2 ∧ waits 1 tr = true ∧
      x.env.curr = some 1 ∧ (x.env.ctx 1).canSchedule = true ∧ x.env.chg 1 = none ∧ x.lock = some 2 ∧ x.pc 1 = .want ∧
      x.env.mu = none ∧ x.env.min = 5 ∧ x.env.lists 5 = [1] ∧ x.env.mem 1 = true := by
    intro n
    induction n with
    | zero =>
      exact ⟨(addAll 2 9).map .env ++ [.switch, .call 2, .tas 2] ++ (addAll 1 5).map .env ++ [.switch, .call 1], _, _, rfl, rfl, rfl, rfl,
        rfl, rfl, rfl, rfl, rfl, rfl, rfl, rfl, rfl⟩
    | succ n ih =>
      obtain ⟨as, x, tr, h1, h2, h3, h4, h5, h6, h7, h8, h9, h10, h11, h12, h13⟩ := ih
      have hse : x.env.search = some (5, 1) := by
        simp only [State.search, h11, maxPriority]
        simp [h12, h6, List.range'_succ]
      have hp2 : x.env.pick.2 = some 1 := by simp [State.pick, hse]
      obtain ⟨f1, f2, f3, f4, f5, f6, f7⟩ := pick_fields x.env
      have hf : (x.env.ctx 1).st ≠ .finished := by
        simp only [Ctx.canSchedule, Bool.and_eq_true] at h6
        simpa using h6.1
      have hst : sstep x (.tas 1) = some ({ x with env := x.env.pick.1 }, [.fail 1, .env (.pick (some 1))]) := by
        simp [sstep, runs?, h5, hf, h7, h9, h8, h13, step, State.muFree, h10, hp2]
      refine ⟨as ++ [.tas 1], { x with env := x.env.pick.1 }, tr ++ [.fail 1, .env (.pick (some 1))],
        runs_append h1 (by simp [runs, hst]), ?_, ?_, ?_, ?_, ?_, ?_, h8, h9, ?_, ?_, ?_, ?_⟩
      · rw [List.count_append, h2]; rfl
      · rw [owner_append, h3]; rfl
      · rw [waits_append, h4]; rfl
      · simp [State.pick, hse]
      · rw [(pick_ctx (s := x.env) 1).2.2.2.2.2.2.2]; exact h6
      · simp only [f4]; exact h7
      · simp [State.pick, hse, h10]
      · simp [State.pick, hse]
      · simp [State.pick, hse, h12]
      · simp only [f1]; exact h13
  obtain ⟨as, x, tr, h1, h2, h3, h4, _⟩ := key n
  exact ⟨as, x, tr, h1, h2, h3, h4⟩

/-! ## What does hold -/

/-- Between two picks of one there is a pick of the other: then the numbers differ by one at most. -/
theorem count_alt {α : Type} [DecidableEq α] (p q : α) : ∀ (n : Nat) (es : List α), es.length ≤ n →
    (∀ pre mid post, es = pre ++ p :: (mid ++ p :: post) → p ∉ mid → q ∈ mid) → es.count p ≤ es.count q + 1
  | 0, es, hn, _ => by
    have : es = [] := by simpa using hn
    subst this; simp
  | n + 1, es, hn, h => by
    by_cases h1 : p ∈ es
    · obtain ⟨a, b, rfl, ha⟩ := List.eq_append_cons_of_mem h1
      by_cases h2 : p ∈ b
      · obtain ⟨m, c, rfl, hm⟩ := List.eq_append_cons_of_mem h2
        have hq := h a m c rfl hm
        have ih := count_alt p q n (p :: c) (by simp at hn ⊢; omega) (by
          intro pre mid post he hmid
          refine h (a ++ p :: (m ++ pre)) mid post ?_ hmid
          rw [he]; simp)
        have c1 := List.count_eq_zero_of_not_mem ha
        have c2 := List.count_eq_zero_of_not_mem hm
        have c3 := List.count_pos_iff.2 hq
        simp only [List.count_append, List.count_cons, c1, c2] at ih ⊢
        simp only [beq_self_eq_true, if_true] at ih ⊢
        omega
      · have c1 := List.count_eq_zero_of_not_mem ha
        have c2 := List.count_eq_zero_of_not_mem h2
        simp [List.count_append, List.count_cons, c1, c2]
    · rw [List.count_eq_zero_of_not_mem h1]; omega

/-- What being runnable all the time excludes. -/
theorem always_runnable {v : View} {c : Nat} : ∀ (es : List Ev) (v : View), (∀ m1 m2, es = m1 ++ m2 → (m1.foldl note v).runnable c) →
    ∀ e ∈ es, stops c e = false ∧ e ≠ .gone c ∧ ∀ cs, e = .take cs → c ∉ cs
  | [], _, _, e, he => by simp at he
  | f :: es, v, h, e, he => by
    rcases List.mem_cons.1 he with rfl | he
    · have h1 := h [e] es rfl
      have h0 := h [] (e :: es) rfl
      simp only [List.foldl_cons, List.foldl_nil, View.runnable] at h1 h0
      refine ⟨?_, ?_, ?_⟩
      · cases e with
        | enter d r =>
          simp only [stops, beq_eq_false_iff_ne, ne_eq]
          rintro rfl
          have := h1.2.2
          simp only [note, set_same] at this
          split at this
          · rename_i hr; rw [this] at hr; simp at hr
          · simp at this
        | finish d =>
          simp only [stops, beq_eq_false_iff_ne, ne_eq]
          rintro rfl
          have := h1.2.1
          simp [note] at this
        | _ => rfl
      · rintro rfl
        have := h1.1
        simp [note] at this
      · rintro cs rfl hc
        have := h1.1
        simp [note, hc] at this
    · exact always_runnable (v := v) es (note v f) (fun m1 m2 hm => h (f :: m1) m2 (by rw [hm]; rfl)) e he

theorem keep_runs {x : Nat} : ∀ (as : List Act) (s s' : State) (es : List Ev), Inv s → runs (step false) s as = some (s', es) →
    (∀ e ∈ es, touches x e = false) → s.mem x = true → s.chg x = none →
    s'.mem x = true ∧ s'.chg x = none ∧ (s'.ctx x).prio = (s.ctx x).prio
  | [], s, s', es, _, hr, _, hm, hc => by
    simp only [runs, Option.some.injEq, Prod.mk.injEq] at hr
    obtain ⟨rfl, rfl⟩ := hr
    exact ⟨hm, hc, rfl⟩
  | a :: as, s, s', es, hI, hr, ht, hm, hc => by
    obtain ⟨u, g1, g2, k1, k2, rfl⟩ := runs_cons hr
    obtain ⟨m1, m2, m3, _⟩ := keep_step hI k1 (fun e he => ht e (by simp [he])) hm hc
    obtain ⟨n1, n2, n3⟩ := keep_runs as u s' g2 (inv_step hI k1) k2 (fun e he => ht e (by simp [he])) m1 m2
    exact ⟨n1, n2, n3.trans m3⟩

theorem starve_runs {w h : Nat} : ∀ (as : List Act) (s s' : State) (es : List Ev), Starve w h s → runs (step false) s as = some (s', es) →
    (∀ e ∈ es, touches w e = false ∧ touches h e = false ∧ stops w e = false) → Ev.pick (some h) ∉ es
  | [], s, s', es, _, hr, _ => by
    simp only [runs, Option.some.injEq, Prod.mk.injEq] at hr
    obtain ⟨rfl, rfl⟩ := hr
    simp
  | a :: as, s, s', es, hS, hr, ht => by
    obtain ⟨u, g1, g2, k1, k2, rfl⟩ := runs_cons hr
    obtain ⟨m1, m2⟩ := starve_step hS k1 (fun e he => ht e (by simp [he]))
    have := starve_runs as u s' g2 m1 k2 (fun e he => ht e (by simp [he]))
    simp [m2, this]

/-- Two coroutines of one env that can run all the time: one that is not better is not picked more often (plus one). -/
theorem fair_picks {as bs : List Act} {s s' : State} {tr es : List Ev} {w h : Nat} (hwh : w ≠ h)
    (h1 : runs (step false) State.init as = some (s, tr)) (h2 : runs (step false) s bs = some (s', es))
    (hrun : ∀ m1 m2, es = m1 ++ m2 → (view (tr ++ m1)).runnable w ∧ (view (tr ++ m1)).runnable h)
    (hset : ∀ v, Ev.setPrio w v ∉ es ∧ Ev.setPrio h v ∉ es) (hop : (view tr).prioOp w = 0 ∧ (view tr).prioOp h = 0)
    (hwk : (view tr).wake h = 0) (hle : (view tr).prio h ≤ (view tr).prio w) :
    es.count (.pick (some w)) ≤ es.count (.pick (some h)) + 1 := by
  obtain ⟨hI, hA⟩ := agree_runs h1
  have r0 := hrun [] es rfl
  rw [List.append_nil] at r0
  have aw := always_runnable (v := view tr) (c := w) es (view tr) (fun m1 m2 hm => by rw [← view_append]; exact (hrun m1 m2 hm).1)
  have ah := always_runnable (v := view tr) (c := h) es (view tr) (fun m1 m2 hm => by rw [← view_append]; exact (hrun m1 m2 hm).2)
  have tw : ∀ e ∈ es, touches w e = false := by
    intro e he
    obtain ⟨_, b1, b2⟩ := aw e he
    cases e with
    | setPrio c v => simp only [touches, beq_eq_false_iff_ne]; exact fun e => (hset v).1 (e ▸ he)
    | gone c => simp only [touches, beq_eq_false_iff_ne]; exact fun e => b1 (by rw [e])
    | take cs => simp only [touches, decide_eq_false_iff_not]; exact b2 cs rfl
    | _ => rfl
  have th : ∀ e ∈ es, touches h e = false := by
    intro e he
    obtain ⟨_, b1, b2⟩ := ah e he
    cases e with
    | setPrio c v => simp only [touches, beq_eq_false_iff_ne]; exact fun e => (hset v).2 (e ▸ he)
    | gone c => simp only [touches, beq_eq_false_iff_ne]; exact fun e => b1 (by rw [e])
    | take cs => simp only [touches, decide_eq_false_iff_not]; exact b2 cs rfl
    | _ => rfl
  have rw0 := (runnable_iff hI hA w).1 r0.1
  have rh0 := (runnable_iff hI hA h).1 r0.2
  have gw : s.chg w = none := by
    have := hop.1
    rw [hA.prioOp] at this
    cases hg : s.chg w with
    | none => rfl
    | some g => rw [hg] at this; simp at this
  obtain ⟨gh, hmin⟩ := min_le hI hA r0.2 hwk hop.2
  rcases Nat.lt_or_eq_of_le hle with hlt | heq
  · have := starve_runs (w := h) (h := w) bs s s' es
      ⟨hI, rh0.1, rw0.1, gh, gw, rh0.2, by rw [← hA.prio w rw0.1, ← hA.prio h rh0.1]; exact hlt, hmin⟩ h2
      (fun e he => ⟨th e he, tw e he, (ah e he).1⟩)
    rw [List.count_eq_zero_of_not_mem this]; omega
  · refine count_alt _ _ es.length es (Nat.le_refl _) ?_
    intro pre mid post he hmid
    obtain ⟨as1, a, as2, s1, s2, p1, p2, q1, q2, rfl, k1, k2, k3, e1, e2⟩ := runs_split bs _ _ pre _ _ (he ▸ h2)
    obtain ⟨rfl, rfl, rfl, rfl, _, _⟩ := pick_only k2
    simp only [List.append_nil, List.nil_append] at e1 e2
    subst e1
    have hk := runs_append h1 k1
    obtain ⟨hI1, hA1⟩ := agree_runs hk
    have sub : ∀ e ∈ pre, e ∈ es := fun e hm => by rw [he]; simp [hm]
    obtain ⟨w1, w2, w3⟩ := keep_runs as1 s s1 pre hI k1 (fun e hm => tw e (sub e hm)) rw0.1 gw
    obtain ⟨l1, l2, l3⟩ := keep_runs as1 s s1 pre hI k1 (fun e hm => th e (sub e hm)) rh0.1 gh
    have := C44_round_robin (c := w) (d := h) (pre := tr ++ pre) (mid := mid) (post := post) hwh
      (by rw [List.append_assoc, ← he]; exact runs_append h1 h2) hmid
      (fun v => ⟨fun hv => (hset v).1 (by rw [he]; simp [hv]), fun hv => (hset v).2 (by rw [he]; simp [hv])⟩)
      (by rw [hA1.prio w w1, hA1.prio h l1, w3, l3, ← hA.prio w rw0.1, ← hA.prio h rh0.1]; exact heq.symm)
      ⟨by rw [hA1.prioOp, w2]; rfl, by rw [hA1.prioOp, l2]; rfl⟩
      (fun m1 m2 hm => by
        have := hrun (pre ++ .pick (some w) :: m1) (m2 ++ .pick (some w) :: post) (by rw [he, hm]; simp)
        rw [List.append_assoc]; exact this)
    exact List.count_pos_iff.1 (by omega)

/-- Each turn of the loop that failed needs a turn of the scheduler. -/
theorem fail_step {x x' : Sys} {a : SAct} {es : List SEv} {w f p : Nat} (hmw : x.env.mem w = true) (hs : sstep x a = some (x', es))
    (h : f ≤ p + if x.env.curr = some w then 0 else 1) :
    f + es.count (.fail w) ≤ p + es.count (.env (.pick (some w))) + if x'.env.curr = some w then 0 else 1 := by
  have hmap : ∀ l : List Ev, (l.map SEv.env).count (.fail w) = 0 := fun l => List.count_eq_zero_of_not_mem (by simp)
  have hsw : ∀ r, step false x.env .pick = some r → ((r.2.map SEv.env).count (.env (.pick (some w))) = if r.1.curr = some w then 1 else 0) := by
    intro r hr
    rw [(pick_evs hr).1]
    by_cases hw : r.1.curr = some w
    · simp [hw]
    · rw [if_neg hw]
      exact List.count_eq_zero_of_not_mem (by simpa using fun e => hw e.symm)
  cases a with
  | env b =>
    simp only [sstep] at hs
    split at hs
    · rename_i hal
      simp only [Option.map_eq_some_iff, Prod.mk.injEq] at hs
      obtain ⟨r, hb, rfl, rfl⟩ := hs
      have hne : b ≠ .pick := by rintro rfl; simp [allowed] at hal
      obtain ⟨_, h2, h3⟩ := min_step hne hb
      rw [hmap]
      simp only [h2]
      omega
    · simp at hs
  | switch =>
    simp only [sstep, Option.map_eq_some_iff, Prod.mk.injEq] at hs
    obtain ⟨r, hb, rfl, rfl⟩ := hs
    rw [hmap, hsw r hb]
    simp only
    split at h <;> split <;> omega
  | call c =>
    simp only [sstep] at hs
    split at hs
    · simp only [Option.some.injEq, Prod.mk.injEq] at hs
      obtain ⟨rfl, rfl⟩ := hs
      simpa using h
    · simp at hs
  | tas c =>
    simp only [sstep] at hs
    split at hs
    · rename_i hc
      split at hs
      · simp only [Option.some.injEq, Prod.mk.injEq] at hs
        obtain ⟨rfl, rfl⟩ := hs
        simpa using h
      · split at hs
        · rename_i hm
          simp only [Option.map_eq_some_iff, Prod.mk.injEq] at hs
          obtain ⟨r, hb, rfl, rfl⟩ := hs
          have hcur : x.env.curr = some c := by
            have := hc.1
            simp only [runs?, hm, Bool.and_eq_true, Bool.or_eq_true, decide_eq_true_eq] at this
            rcases this.1 with h1 | h1
            · exact h1.1
            · simp at h1
          simp only [List.count_cons, hmap, hsw r hb]
          by_cases hcw : c = w
          · subst hcw
            rw [if_pos hcur] at h
            simp only [beq_self_eq_true, if_true, reduceCtorEq, beq_iff_eq, if_false]
            split <;> omega
          · have : ¬ x.env.curr = some w := by rw [hcur]; simpa using hcw
            rw [if_neg this] at h
            simp only [beq_iff_eq, SEv.fail.injEq, hcw, if_false, reduceCtorEq]
            split <;> omega
        · rename_i hm
          simp only [Option.some.injEq, Prod.mk.injEq] at hs
          obtain ⟨rfl, rfl⟩ := hs
          have hcw : c ≠ w := by rintro rfl; exact hm hmw
          have : List.count (SEv.fail w) [.fail c] = 0 := List.count_eq_zero_of_not_mem (by simpa using Ne.symm hcw)
          rw [this]
          simpa using h
    · simp at hs
  | rel c =>
    simp only [sstep] at hs
    split at hs
    · simp only [Option.some.injEq, Prod.mk.injEq] at hs
      obtain ⟨rfl, rfl⟩ := hs
      simpa using h
    · simp at hs

theorem fail_runs {w : Nat} : ∀ (as : List SAct) (x x' : Sys) (tr es : List SEv) (f p : Nat), Ok x tr →
    runs sstep x as = some (x', es) → (∀ m1 m2, envOf es = m1 ++ m2 → (view (envOf tr ++ m1)).mem w = true) →
    f ≤ p + (if x.env.curr = some w then 0 else 1) →
    f + es.count (.fail w) ≤ p + es.count (.env (.pick (some w))) + 1
  | [], x, x', tr, es, f, p, _, hr, _, h => by
    simp only [runs, Option.some.injEq, Prod.mk.injEq] at hr
    obtain ⟨rfl, rfl⟩ := hr
    simp only [List.count_nil]
    split at h <;> omega
  | a :: as, x, x', tr, es, f, p, hO, hr, hm, h => by
    obtain ⟨u, g1, g2, k1, k2, rfl⟩ := runs_cons hr
    have h0 := hm [] (envOf (g1 ++ g2)) rfl
    rw [List.append_nil, hO.agree.mem] at h0
    have := fail_runs as u x' (tr ++ g1) g2 _ _ (ok_step hO k1) k2 (fun m1 m2 he => by
      have := hm (envOf g1 ++ m1) m2 (by rw [envOf_append, he, List.append_assoc])
      rwa [envOf_append, List.append_assoc]) (fail_step h0 k1 h)
    simp only [List.count_append]
    omega

theorem count_envOf (e : Ev) (es : List SEv) : (envOf es).count e = es.count (.env e) := by
  induction es with
  | nil => rfl
  | cons f es ih =>
    cases f <;> simp only [envOf, List.count_cons, ih]
    · simp
    all_goals simp

/-- **C98 (partial)**: coroutine `w` uses the lock, `h` is another coroutine of the env, at least as good as `w`; no wake-up of `h`
and no priority change of either is in progress. As long as both can run and no priority of theirs is changed, `h` gets a turn for
each turn of the loop in which `w` found the lock taken, but for two. -/
theorem C98_holder_runs_partial {as : List SAct} {x : Sys} {tr : List SEv} (hx : runs sstep Sys.init as = some (x, tr)) {w h : Nat}
    (hwh : w ≠ h) (hle : (view (envOf tr)).prio h ≤ (view (envOf tr)).prio w) (hwk : (view (envOf tr)).wake h = 0)
    (hop : (view (envOf tr)).prioOp w = 0 ∧ (view (envOf tr)).prioOp h = 0)
    {bs : List SAct} {x' : Sys} {es : List SEv} (hy : runs sstep x bs = some (x', es))
    (hset : ∀ v, SEv.env (.setPrio w v) ∉ es ∧ SEv.env (.setPrio h v) ∉ es)
    (hrun : ∀ m1 m2, envOf es = m1 ++ m2 → (view (envOf tr ++ m1)).runnable w ∧ (view (envOf tr ++ m1)).runnable h) :
    es.count (.fail w) ≤ es.count (.env (.pick (some h))) + 2 := by
  obtain ⟨as1, h1⟩ := runs_env as _ _ _ hx
  obtain ⟨bs1, h2⟩ := runs_env bs _ _ _ hy
  have k1 := fair_picks hwh h1 h2 hrun (fun v => ⟨fun hv => (hset v).1 (mem_envOf.1 hv), fun hv => (hset v).2 (mem_envOf.1 hv)⟩)
    hop hwk hle
  rw [count_envOf, count_envOf] at k1
  have k2 := fail_runs (w := w) bs x x' tr es 0 0 (ok_runs hx) hy (fun m1 m2 he => (hrun m1 m2 he).1.1) (by omega)
  omega

/-- Non-trivial case: both of priority 5. Coroutine 1 fails three times, coroutine 2 gets three turns and then releases the lock. -/
example : (runs sstep Sys.init ((addAll 2 5).map .env ++ [.switch, .call 2, .tas 2] ++ (addAll 1 5).map .env ++
      [.switch, .switch, .call 1, .tas 1, .switch, .tas 1, .switch, .tas 1, .rel 2, .switch, .tas 1])).map (fun p =>
        (p.2.count (.fail 1), p.2.count (.env (.pick (some 2))), owner p.2)) = some (3, 5, some 1) := by rfl

end Verif.Inversion
