import Verif.Sync.Ordered
import Verif.Sched.ComposeManyProps

/-! # C124 together with the scheduler

The programs of `Verif/Sync/Ordered.lean` as coroutines of any number of scheduling threads (`Verif/Sched/ComposeMany.lean`). -/

namespace Verif.Compose
open Ordered

/-- The programs and their mutexes as one object that makes coroutines wait: each coroutine is inside at most one call (co_mutex.cpp:59 registers, :106 wakes). -/
def ordered : Obj Ordered.State (Nat × Bool) (Nat × LockSpec.Ev) where
  step := Ordered.step
  who a := a.1
  inner _ := true
  busy s t := (s.cur t).isSome || s.prog t != .done
  asleep s t := match s.cur t with
    | none => false
    | some m => mutex.asleep (s.mu m) t
  parked s t := match s.cur t with
    | none => false
    | some m => mutex.parked (s.mu m) t
  parks s a := match s.cur a.1 with
    | none => false
    | some m => mutex.parks (s.mu m) (.run a.1 a.2)
  wakes s a := match s.cur a.1 with
    | none => []
    | some m => mutex.wakes (s.mu m) (.run a.1 a.2)

/-- Proof device. (Concerns co_mutex.cpp:18-108, co_mutex.h:15-17.) -/
structure OrderedI (s : Ordered.State) : Prop where
  inv : Ordered.Inv s
  mu : ∀ m, MutexI (s.mu m)

/-- Whom a step wakes is inside a call of that mutex. -/
theorem mutex_wakes_inside {x : Mutex.St} (hi : Mutex.Inv x) {t u : Nat} {b : Bool} (hw : u ∈ mutex.wakes x (.run t b)) : x.pc u ≠ .out ∧ u ≠ t := by
  have hu := hi.loc u
  simp only [mutex] at hw
  split at hw
  · rename_i hp
    split at hw
    · have := List.mem_of_mem_take hw
      refine ⟨fun ho => ?_, ?_⟩
      · simp only [Mutex.Loc, ho] at hu; grind
      · rintro rfl; simp only [Mutex.Loc, hp] at hu; grind
    · cases hw
  · cases hw

/-- A step of a program is a step of one mutex. -/
theorem ordered_kind {s s' : Ordered.State} {t : Nat} {b : Bool} {es : List (Nat × LockSpec.Ev)} (hs : Ordered.step s (t, b) = some (s', es)) :
    ∃ m c x es', Mutex.step false (s.mu m) c = some (x, es') ∧ mutex.who c = t ∧ s'.mu = upd s.mu m x ∧ ordered.parks s (t, b) = mutex.parks (s.mu m) c ∧
      ordered.wakes s (t, b) = mutex.wakes (s.mu m) c ∧ ((∃ b', c = .run t b') ∨ mutex.wakes (s.mu m) c = []) := by
  simp only [Ordered.step] at hs
  cases hc : s.cur t with
  | none =>
    rw [hc] at hs
    simp only at hs
    split at hs
    · cases hs
    · rename_i m c hf
      split at hs
      · cases hs
      · rename_i x es' hx
        cases hs
        refine ⟨m, c, x, es', hx, ?_⟩
        cases hp : s.prog t <;> simp only [hp, Prog.first, Option.some.injEq, Prod.mk.injEq, reduceCtorEq] at hf <;>
          obtain ⟨rfl, rfl⟩ := hf <;> simp [mutex, ordered, hc]
  | some m =>
    rw [hc] at hs
    simp only at hs
    split at hs
    · cases hs
    · rename_i x es' hx
      refine ⟨m, .run t b, x, es', hx, rfl, ?_, by simp [ordered, hc], by simp [ordered, hc], .inl ⟨b, rfl⟩⟩
      split at hs <;> cases hs <;> rfl

theorem OrderedI.asleep {s : Ordered.State} (h : OrderedI s) (u : Nat) : ordered.asleep s u = true ↔ ∃ m, (s.mu m).asleep u = true := by
  simp only [ordered, mutex]
  refine ⟨fun ha => ?_, fun ⟨m, hm⟩ => ?_⟩
  · split at ha
    · cases ha
    · exact ⟨_, ha⟩
  · have : (s.mu m).pc u ≠ .out := by rcases h.mu m u hm with h | h <;> rw [h] <;> simp
    rw [(h.inv.own u m).1 this]
    exact hm

theorem ordered_inv {s s' : Ordered.State} {a : Nat × Bool} {es : List (Nat × LockSpec.Ev)} (h : OrderedI s) (hs : Ordered.step s a = some (s', es)) : OrderedI s' := by
  refine ⟨Ordered.inv_step _ _ _ _ h.inv hs, fun k => ?_⟩
  obtain ⟨t, b⟩ := a
  obtain ⟨m, c, x, es', hx, _, hm, _⟩ := ordered_kind hs
  rw [hm]
  simp only [upd_apply]; split
  · exact mutex_laws.inv (h.mu m) hx
  · exact h.mu k

theorem ordered_laws : Laws ordered OrderedI where
  inv := ordered_inv
  sleep {s a s' es} h hs u := by
    obtain ⟨t, b⟩ := a
    rw [(ordered_inv h hs).asleep u, h.asleep u]
    obtain ⟨m, c, x, es', hx, hw, hm, hp, hwk, hr⟩ := ordered_kind hs
    have h1 := (mutex_sleep hx u).1
    rw [hw] at h1
    rw [hm, hp, hwk, show ordered.who (t, b) = t from rfl]
    constructor
    · rintro ⟨k, hk⟩
      by_cases hkm : k = m
      · subst hkm
        rw [upd_same] at hk
        obtain ⟨h2, h3⟩ := h1.1 hk
        exact ⟨h2.elim (fun h => .inl ⟨k, h⟩) .inr, h3⟩
      · rw [upd_other _ _ hkm] at hk
        refine ⟨.inl ⟨k, hk⟩, fun hwu => ?_⟩
        rcases hr with ⟨b', rfl⟩ | hr
        · have h2 := (h.inv.own u m).1 (mutex_wakes_inside (h.inv.mu m) hwu).1
          have h3 : (s.mu k).pc u ≠ .out := by rcases h.mu k u hk with h | h <;> rw [h] <;> simp
          rw [(h.inv.own u k).1 h3, Option.some.injEq] at h2
          exact hkm h2
        · rw [hr] at hwu; cases hwu
    · rintro ⟨⟨k, hk⟩ | h2, h3⟩
      · by_cases hkm : k = m
        · subst hkm
          exact ⟨k, by rw [upd_same]; exact h1.2 ⟨.inl hk, h3⟩⟩
        · exact ⟨k, by rw [upd_other _ _ hkm]; exact hk⟩
      · exact ⟨m, by rw [upd_same]; exact h1.2 ⟨.inr h2, h3⟩⟩
  other {s a s' es} h hs u hu := by
    obtain ⟨t, b⟩ := a
    have h1 := Ordered.other_step hs hu
    obtain ⟨m, c, x, es', hx, hw, hm, _⟩ := ordered_kind hs
    have h2 := (mutex_sleep hx u).2 (by rw [hw]; exact hu)
    simp only [ordered, mutex, h1.1, h1.2, hm, true_and]
    split
    · rfl
    · rename_i k _
      by_cases hkm : k = m
      · subst hkm; rw [upd_same, h2]
      · rw [upd_other _ _ hkm]
  stay {s t} h hs := by
    simp only [ordered] at hs ⊢
    cases hc : s.cur t with
    | none => rw [hc] at hs; cases hs
    | some m => rfl
  blocked {s a} h hp hs := by
    obtain ⟨t, b⟩ := a
    simp only [ordered] at hp hs ⊢
    cases hc : s.cur t with
    | none => rw [hc] at hp; cases hp
    | some m =>
      rw [hc] at hp hs
      have := mutex_laws.blocked (a := .run t b) (h.mu m) hp hs
      simp only [mutex] at this
      simp [Ordered.step, hc, this]
  outside {s a} h hb _ := by
    simp only [ordered, Bool.or_eq_false_iff, Option.isSome_eq_false_iff, Option.isNone_iff_eq_none, bne_eq_false_iff_eq] at hb
    simp [ordered, Ordered.step, hb.1, hb.2, Prog.first]

theorem ordered_init (p : Nat → Prog) (hp : ∀ t, (p t).ordered (fun _ => false)) : OrderedI (Ordered.State.init p) :=
  ⟨Ordered.inv_init p hp, fun _ => mutex_init⟩

/-- **C124**: and with the scheduler: if the programs are coroutines of any number of scheduling threads, then when all threads are idle every coroutine has finished its program and no mutex is
owned. -/
theorem Many.C124_idle (p : Nat → Prog) (hp : ∀ t, (p t).ordered (fun _ => false)) {R n : Nat} {as : List (Many.Act (Nat × Bool))} {s : Many.St Ordered.State}
    {es : List (Many.Ev (Nat × LockSpec.Ev))} (h : Many.Idle ordered R n (Ordered.State.init p) as s es) (t : Nat) :
    s.obj.prog t = .done ∧ s.obj.cur t = none ∧ ∀ m, (s.obj.mu m).owner ≠ some t :=
  C124_no_deadlock p hp _ _ _ (Many.obj_runs as _ _ _ h.run) (fun a => Many.stuck ordered_laws (ordered_init p hp) h a rfl) t

/-- Two coroutines that lock two mutexes in the same order. (Concerns co_mutex.cpp:18-108, co_mutex.h:15-17.) -/
def pair (t : Nat) : Prog := if t = 1 ∨ t = 2 then .lock 0 (.lock 1 (.unlock 1 (.unlock 0 .done))) else .done

/-- 1 runs on thread 0, takes mutex 0; 2 runs on thread 1, goes to sleep behind it; 1 takes mutex 1, unlocks both, wakes 2 and ends; 2 goes on and ends. (Concerns co_mutex.cpp:18-108, co_mutex.h:15-17.) -/
def pairTurns : List (Many.Act (Nat × Bool)) :=
  Many.come 0 1 5 ++ Many.come 1 2 5 ++ [.env 0 .pick, .env 1 .pick] ++ List.replicate 5 (.obj (1, true)) ++ List.replicate 6 (.obj (2, true)) ++ [.env 1 .pick] ++
  List.replicate 13 (.obj (1, true)) ++ Many.rouse 1 2 5 ++ [.env 0 (.finish 1), .env 1 .pick] ++ List.replicate 17 (.obj (2, true)) ++ [.env 1 (.finish 2)]

/-- Non-trivial case of `C124_idle`. -/
example : ∃ s es, Many.Idle ordered 7 2 (Ordered.State.init pair) pairTurns s es ∧ (∀ t, (pair t).ordered (fun _ => false)) := by
  have hr : ∃ s es, runs (Many.step ordered 7 2) (Many.St.init (Ordered.State.init pair)) pairTurns = some (s, es) ∧
      (∀ e < 2, ∃ s', Many.step ordered 7 2 s (.env e .pick) = some (s', [.env e (.pick none)])) ∧ ordered.busy s.obj 1 = false ∧ ordered.busy s.obj 2 = false := by
    refine ⟨_, _, rfl, fun e he => ?_, rfl, rfl⟩
    match e, he with
    | 0, _ => exact ⟨_, rfl⟩
    | 1, _ => exact ⟨_, rfl⟩
  obtain ⟨s, es, h1, h2, h3, h4⟩ := hr
  have hord : ∀ t, (pair t).ordered (fun _ => false) := by
    intro t; unfold pair
    split <;> simp only [Prog.ordered, upd_apply] <;> grind
  refine ⟨s, es, ⟨h1, h2, fun t ht => ?_⟩, hord⟩
  exfalso
  by_cases ht1 : t = 1
  · subst ht1; rw [h3] at ht; cases ht
  · by_cases ht2 : t = 2
    · subst ht2; rw [h4] at ht; cases ht
    · have h5 := Ordered.other_runs (u := t) _ (fun a ha => by
        have : ∀ a ∈ Many.objActs pairTurns, a.1 = 1 ∨ a.1 = 2 := by decide
        exact (this a ha).elim (fun h he => ht1 (he.trans h)) (fun h he => ht2 (he.trans h))) (Many.obj_runs pairTurns _ _ _ h1)
      simp only [ordered, h5.1, h5.2] at ht
      simp [Many.St.init, Ordered.State.init, pair, ht1, ht2] at ht

end Verif.Compose
