import Verif.Sched.Shutdown

/-! # What threads leave behind (C130)

A thread that is not one of the library's gets an env of its own when it first uses the library (`current_env`,
co_manager.cpp:161-176): the `co_env`, an idle ctx and, with the first coroutine on the shared stack, a stack
(co_env_factory.cpp:42-54). `current_env__` is a plain pointer (co_env.cpp:30), so nothing happens to the env when the thread
ends. The model is that of `Verif/Sched/Shutdown.lean`; `threadEnd` is the end of such a thread. -/

namespace Verif.Shutdown

/-- The env was made from a thread, never scheduled coroutines (co_env.cpp:420-427), and is no longer the current env of any
thread. -/
def State.Orphan (s : State) (e : Nat) : Prop := (∃ o, s.env e = some o ∧ o.noThread = true) ∧ ∀ t, s.cur t ≠ some e

attribute [local grind =] State.put State.convert State.remove Env.own Env.ofThread upd_apply State.noTh

theorem orphan_guard {s : State} (hI : Inv s) {e : Nat} (h : s.Orphan e) (t : Nat) : (s.guard t).1.Orphan e := by
  unfold State.guard
  split
  · obtain ⟨⟨o, ho, hn⟩, hc⟩ := h
    have hlt := hI.bound e o ho
    refine ⟨⟨o, ?_, hn⟩, fun u => ?_⟩
    · simp only [State.convert, State.put]; grind
    · have := hc u; simp only [State.convert, State.put]; grind
  · split <;> exact h

theorem orphan_put {s s' : State} {e x : Nat} {o o' : Env} (h : s.Orphan e) (h1 : s'.env = upd s.env x (some o')) (h2 : s'.cur = s.cur ∨ ∃ t, s'.cur = upd s.cur t none)
    (hx : s.env x = some o) (hn : o.noThread = true → o'.noThread = true) : s'.Orphan e := by
  obtain ⟨⟨p, hp, hpn⟩, hc⟩ := h
  refine ⟨?_, fun u => ?_⟩
  · by_cases hxe : x = e
    · subst hxe
      rw [hx] at hp; cases hp
      exact ⟨o', by simp [h1], hn hpn⟩
    · exact ⟨p, by rw [h1]; grind, hpn⟩
  · have := hc u
    rcases h2 with h2 | ⟨t, h2⟩ <;> rw [h2] <;> grind

theorem orphan_same {s s' : State} {e : Nat} (h : s.Orphan e) (h1 : s'.env = s.env) (h2 : s'.cur = s.cur) : s'.Orphan e := by
  unfold State.Orphan; rw [h1, h2]; exact h

theorem orphan_forget {s s' : State} {e : Nat} (h : s.Orphan e) (t : Nat) (h1 : s'.env = s.env) (h2 : s'.cur = upd s.cur t none) : s'.Orphan e := by
  obtain ⟨ho, hc⟩ := h
  refine ⟨by rw [h1]; exact ho, fun u => ?_⟩
  have := hc u; rw [h2]; grind

theorem orphan_cleaned {s : State} {e : Nat} (h : s.Orphan e) : s.cleaned.Orphan e := by
  obtain ⟨⟨o, ho, hn⟩, hc⟩ := h
  refine ⟨?_, hc⟩
  simp only [State.cleaned]
  split
  · exact ⟨{ o with told := true }, by simp [ho], hn⟩
  · exact ⟨o, ho, hn⟩

theorem inv_cleaned {s : State} (h : Inv s) (hr : s.mp = .running) (hl : s.cl.locked = false) : Inv s.cleaned := inv_clean1 h hr hl

theorem orphan_setCleanUp {s : State} {e : Nat} (hI : Inv s) (hr : s.mp = .running) (hl : s.cl.locked = false) (h : s.Orphan e) : s.setCleanUp.1.Orphan e := by
  unfold State.setCleanUp
  split
  · exact orphan_cleaned h
  · exact orphan_guard (inv_clean1 hI hr hl) (orphan_cleaned h) main

theorem orphan_clean {s s' : State} {es : List Ev} {e : Nat} (hI : Inv s) (h : s.Orphan e) (hs : cleanStep s = some (s', es)) : s'.Orphan e := by
  simp only [cleanStep] at hs
  repeat' split at hs
  all_goals first | (simp only [reduceCtorEq] at hs; done) | skip
  all_goals simp only [Option.some.injEq, Prod.mk.injEq] at hs
  all_goals (have e1 := And.left hs; clear hs; subst e1)
  all_goals first
    | exact orphan_same h rfl rfl
    | exact orphan_same (orphan_guard hI h cleaner) rfl rfl
    | exact orphan_put h rfl (.inl rfl) (by assumption) (by exact fun x => x)
    | skip
  · rename_i x xs _ _ o ho hn
    have h1 : (s.put x { o with told := true }).Orphan e := orphan_put h rfl (.inl rfl) ho (fun x => x)
    have hb : ∀ e' o', (s.put x { o with told := true }).env e' = some o' → e' < (s.put x { o with told := true }).next := by
      intro e' o' he'
      have := hI.bound
      simp only [State.put] at he' ⊢
      grind
    have : ((s.put x { o with told := true }).guard cleaner).1.Orphan e := by
      unfold State.guard
      split
      · obtain ⟨⟨p, hp, hpn⟩, hc⟩ := h1
        have hlt := hb e p hp
        refine ⟨⟨p, ?_, hpn⟩, fun u => ?_⟩
        · simp only [State.convert, State.put] at hp hlt ⊢; grind
        · have := hc u; simp only [State.convert, State.put] at this hlt ⊢; grind
      · split <;> exact h1
    exact orphan_same this rfl rfl

/-- What is left behind stays left behind. -/
theorem orphan_step {s s' : State} {a : Act} {es : List Ev} {e : Nat} (hI : Inv s) (h : s.Orphan e) (hs : step s a = some (s', es)) : s'.Orphan e := by
  cases a
  case use t =>
    simp only [step] at hs
    repeat' split at hs
    all_goals simp only [Option.some.injEq, reduceCtorEq] at hs
    · cases hs; exact h
    · have := congrArg Prod.fst hs; dsimp only at this; subst this; exact orphan_guard hI h t
    · have := congrArg Prod.fst hs; dsimp only at this; subst this; exact orphan_guard hI h t
  case destroy =>
    simp only [step] at hs
    repeat' split at hs
    all_goals simp only [Option.some.injEq, reduceCtorEq] at hs
    · rename_i hc
      have := congrArg Prod.fst hs; dsimp only at this; subst this; exact orphan_setCleanUp hI hc.1 hc.2.1 h
    · rename_i hc
      have := congrArg Prod.fst hs; dsimp only at this; subst this; exact orphan_setCleanUp hI hc.1 hc.2 h
  case clean => exact orphan_clean hI h hs
  all_goals
    simp only [step] at hs
    repeat' split at hs
    all_goals first | (simp only [reduceCtorEq] at hs; done) | skip
    all_goals simp only [Option.some.injEq, Prod.mk.injEq] at hs
    all_goals (have e1 := And.left hs; clear hs; subst e1)
  all_goals first
    | exact h
    | exact orphan_same h rfl rfl
    | exact orphan_forget h _ rfl rfl
    | exact orphan_put h rfl (.inl rfl) (by assumption) (by exact fun x => x)
    | exact orphan_put h rfl (.inr ⟨_, rfl⟩) (by assumption) (by exact fun x => x)
    | skip
  · -- create
    obtain ⟨⟨o, ho, hn⟩, hc⟩ := h
    have hlt := hI.bound e o ho
    exact ⟨⟨o, by simp only [State.put]; grind, hn⟩, hc⟩
  · -- startHere
    rename_i t _ _ x hx _ o ho _ _
    obtain ⟨⟨p, hp, hpn⟩, hc⟩ := h
    have : x ≠ e := fun hxe => hc t (hxe ▸ hx)
    exact ⟨⟨p, by simp only [State.put]; grind, hpn⟩, hc⟩

/-- The action is the end of a thread that has an env. (Concerns co_manager.cpp:161-200, co_env.cpp:30-427.) -/
def Act.isEnd : Act → Bool
  | .threadEnd _ => true
  | _ => false

theorem orphan_end {s s' : State} {t : Nat} {es : List Ev} (hI : Inv s) (hs : step s (.threadEnd t) = some (s', es)) :
    ∃ e, ¬ s.Orphan e ∧ s'.Orphan e := by
  simp only [step] at hs
  repeat' split at hs
  all_goals first | (simp only [reduceCtorEq] at hs; done) | skip
  simp only [Option.some.injEq, Prod.mk.injEq] at hs
  obtain ⟨rfl, rfl⟩ := hs
  rename_i e he hn
  refine ⟨e, fun h => h.2 t he, ?_, fun u hu => ?_⟩
  · obtain ⟨o, ho⟩ := Option.isSome_iff_exists.1 (hI.curS t e he)
    exact ⟨o, ho, by simpa [State.noTh, ho] using hn⟩
  · obtain ⟨o, ho⟩ := Option.isSome_iff_exists.1 (hI.curS t e he)
    have c1 := hI.cur t e o he ho
    simp only [upd_apply] at hu
    split at hu
    · cases hu
    · have := hI.cur u e o hu ho; grind

theorem orphans_runs (as : List Act) : ∀ (s s' : State) (tr : List Ev) (L : List Nat), Inv s → L.Nodup → (∀ e ∈ L, s.Orphan e) →
    runs step s as = some (s', tr) → ∃ L' : List Nat, L'.Nodup ∧ L'.length = L.length + as.countP Act.isEnd ∧ ∀ e ∈ L', s'.Orphan e := by
  induction as with
  | nil => intro s s' tr L _ h1 h2 h; simp [runs] at h; obtain ⟨rfl, _⟩ := h; exact ⟨L, h1, by simp, h2⟩
  | cons a as ih =>
    intro s s' tr L hI h1 h2 h
    obtain ⟨s1, e1, e2, hs, hr, rfl⟩ := runs_cons h
    have hI1 := inv_step hI hs
    have h3 : ∀ e ∈ L, s1.Orphan e := fun e he => orphan_step hI (h2 e he) hs
    by_cases ha : a.isEnd = true
    · cases a <;> simp only [Act.isEnd, reduceCtorEq] at ha
      obtain ⟨e, k1, k2⟩ := orphan_end hI hs
      obtain ⟨L', l1, l2, l3⟩ := ih s1 s' e2 (e :: L) hI1 (List.nodup_cons.2 ⟨fun hm => k1 (h2 e hm), h1⟩)
        (fun x hx => (List.mem_cons.1 hx).elim (fun h => h ▸ k2) (h3 x)) hr
      exact ⟨L', l1, by rw [List.countP_cons, if_pos (by rfl)]; simp at l2; omega, l3⟩
    · obtain ⟨L', l1, l2, l3⟩ := ih s1 s' e2 L hI1 h1 h3 hr
      exact ⟨L', l1, by rw [List.countP_cons, if_neg ha]; omega, l3⟩

/-- **C130, while the manager lives: nothing is freed.** In every execution, as long as the manager is not being destroyed, there are
as many envs that no thread uses any more as threads that used the library have ended; none of them has been freed, and the library's
threads still look at all of them. -/
theorem C130_ended_threads_leave_envs (as : List Act) (s : State) (tr : List Ev) (h : runs step State.init as = some (s, tr)) (hc : s.cleanUp = false) :
    ∃ L : List Nat, L.Nodup ∧ L.length = as.countP Act.isEnd ∧
      ∀ e ∈ L, e ∈ s.normal ∧ (∃ o, s.env e = some o ∧ o.mem = .alive) ∧ ∀ t, s.cur t ≠ some e := by
  have hI := inv_runs h
  obtain ⟨L, l1, l2, l3⟩ := orphans_runs as _ s tr [] inv_init (by simp) (by simp) h
  refine ⟨L, l1, by simpa using l2, fun e he => ?_⟩
  obtain ⟨⟨o, ho, hn⟩, hcur⟩ := l3 e he
  have hm := hI.clN e o hc ho hn
  exact ⟨hm, ⟨o, ho, (hI.normal e o hm ho).1⟩, hcur⟩

/-- Two threads use the library and end: two envs. -/
example : ∃ s tr, runs step State.init [.use 2, .use 3, .threadEnd 2, .use 3, .threadEnd 3] = some (s, tr) ∧ s.normal = [0, 1] ∧ s.cleanUp = false ∧
    s.cur 2 = none ∧ s.cur 3 = none :=
  ⟨_, _, rfl, rfl, rfl, rfl, rfl⟩

/-- One thread after the other. (Concerns co_manager.cpp:161-200, co_env.cpp:30-427.) -/
def oneByOne : Nat → List Act
  | 0 => []
  | n + 1 => oneByOne n ++ [.use (n + 2), .threadEnd (n + 2)]

/-- **C130, growth.** There is no bound: `n` threads, one after the other and each ended before the next begins, leave `n` envs, with no
thread of the user left. -/
theorem C130_unbounded (n : Nat) : ∃ s tr, runs step State.init (oneByOne n) = some (s, tr) ∧ (∀ t, s.cur t = none) ∧ s.normal.length = n ∧
    s.cleanUp = false ∧ s.cl = .start ∧ s.mp = .running ∧ s.next = n ∧ ∀ e, e < n → s.env e = some (.ofThread (e + 2)) := by
  induction n with
  | zero => exact ⟨_, _, rfl, fun _ => rfl, rfl, rfl, rfl, rfl, rfl, by simp⟩
  | succ n ih =>
    obtain ⟨s, tr, h, h1, h2, h3, h4, h5, h6, h7⟩ := ih
    have hu : step s (.use (n + 2)) = some (s.convert (n + 2), [.made s.next]) := by
      simp [step, cleaner, main, h1, h4, h5, Cleaner.locked, State.guard]
    have he : step (s.convert (n + 2)) (.threadEnd (n + 2)) = some ({ s.convert (n + 2) with cur := upd (s.convert (n + 2)).cur (n + 2) none }, []) := by
      simp [step, cleaner, main, State.convert, State.noTh, State.put, Env.ofThread]
    refine ⟨_, _, runs_append h (runs_append (as := [Act.use (n + 2)]) (bs := [Act.threadEnd (n + 2)]) (by simp only [runs, hu]; rfl) (by simp only [runs, he]; rfl)), ?_, ?_, ?_, ?_, ?_, ?_, ?_⟩
    · intro t; have := h1 t; simp only [State.convert]; grind
    · simp [State.convert, h2]
    · exact h3
    · exact h4
    · exact h5
    · simp [State.convert, h6]
    · intro e hlt
      have := h7 e
      simp only [State.convert, State.put, h6]
      grind

/-! ## When the manager is destroyed -/

/-- The object of env `e` exists and is not freed, and the clean-up thread has ended. (Concerns co_manager.cpp:161-200, co_env.cpp:30-427.) -/
def Lost (e : Nat) (s : State) : Prop := s.cl = .ended ∧ ∃ o, s.env e = some o ∧ o.mem = .alive

theorem lost_put {s s' : State} {e x : Nat} {o o' : Env} (h : Lost e s) (h1 : s'.env = upd s.env x (some o')) (h2 : s'.cl = s.cl) (hx : s.env x = some o)
    (hn : o'.mem = o.mem) : Lost e s' := by
  obtain ⟨hc, p, hp, hpn⟩ := h
  refine ⟨by rw [h2]; exact hc, ?_⟩
  by_cases hxe : x = e
  · subst hxe
    rw [hx] at hp; cases hp
    exact ⟨o', by simp [h1], by rw [hn, hpn]⟩
  · exact ⟨p, by rw [h1]; grind, hpn⟩

theorem lost_same {s s' : State} {e : Nat} (h : Lost e s) (h1 : s'.env = s.env) (h2 : s'.cl = s.cl) : Lost e s' := by
  unfold Lost; rw [h1, h2]; exact h

theorem lost_guard {s : State} (hI : Inv s) {e : Nat} (h : Lost e s) (t : Nat) : Lost e (s.guard t).1 := by
  unfold State.guard
  split
  · obtain ⟨hc, o, ho, hn⟩ := h
    have hlt := hI.bound e o ho
    refine ⟨hc, o, ?_, hn⟩
    simp only [State.convert, State.put]; grind
  · split <;> exact h

theorem lost_step {s s' : State} {a : Act} {es : List Ev} {e : Nat} (hI : Inv s) (h : Lost e s) (hs : step s a = some (s', es)) : Lost e s' := by
  have hcl := h.1
  have hmp : s.mp ≠ .running := hI.mp.1 (hI.ended hcl)
  cases a
  case use t =>
    simp only [step] at hs
    repeat' split at hs
    all_goals simp only [Option.some.injEq, reduceCtorEq] at hs
    · cases hs; exact h
    · have := congrArg Prod.fst hs; dsimp only at this; subst this; exact lost_guard hI h t
    · have := congrArg Prod.fst hs; dsimp only at this; subst this; exact lost_guard hI h t
  case destroy => simp [step, hmp] at hs; split at hs <;> simp at hs
  case clean => simp [step, cleanStep, hcl] at hs
  case spurious => simp [step, hcl] at hs
  all_goals
    simp only [step] at hs
    repeat' split at hs
    all_goals first | (simp only [reduceCtorEq] at hs; done) | skip
    all_goals simp only [Option.some.injEq, Prod.mk.injEq] at hs
    all_goals (have e1 := And.left hs; clear hs; subst e1)
  all_goals first
    | exact h
    | exact lost_same h rfl rfl
    | exact lost_put h rfl rfl (by assumption) (by rfl)
    | skip
  · have := hI.ended hcl
    rename_i hc
    simp [this] at hc

/-- A run can be cut anywhere. -/
theorem runs_cut (as bs : List Act) : ∀ {s s' : State} {tr : List Ev}, runs step s (as ++ bs) = some (s', tr) →
    ∃ s1 e1 e2, runs step s as = some (s1, e1) ∧ runs step s1 bs = some (s', e2) ∧ tr = e1 ++ e2 := by
  induction as with
  | nil => intro s s' tr h; exact ⟨s, [], tr, rfl, h, rfl⟩
  | cons a as ih =>
    intro s s' tr h
    obtain ⟨s1, e1, e2, hs, hr, rfl⟩ := runs_cons h
    obtain ⟨s2, f1, f2, k1, k2, rfl⟩ := ih hr
    exact ⟨s2, e1 ++ f1, f2, by simp [runs, hs, k1], k2, by simp⟩

/-- **C130, at the end.** An env can survive even the manager: if the destructor comes before the thread of `clean_env_routine__` has begun
(co_manager.cpp:197-200), the env of a thread is moved to `expired_set`, `normal_set` is empty, and the loop that would free it is not entered. It is
never freed, whatever happens afterwards. -/
theorem C130_never_freed (bs : List Act) (s : State) (tr : List Ev)
    (h : runs step State.init ([.use 2, .threadEnd 2, .destroy, .clean, .clean, .joined] ++ bs) = some (s, tr)) :
    Ev.gone ∈ tr ∧ Ev.freed 0 ∉ tr ∧ ∃ o, s.env 0 = some o ∧ o.mem = .alive := by
  have hp : ∃ s0, runs step State.init [.use 2, .threadEnd 2, .destroy, .clean, .clean, .joined] = some (s0, [.made 0, .expire 0, .gone]) ∧ Lost 0 s0 :=
    ⟨_, rfl, rfl, _, rfl, rfl⟩
  obtain ⟨s0, h0, hl⟩ := hp
  have hx := runs_cut _ _ h
  obtain ⟨s1, e1, e2, k1, k2, k3⟩ := hx
  rw [h0] at k1
  simp only [Option.some.injEq, Prod.mk.injEq] at k1
  obtain ⟨rfl, rfl⟩ := k1
  have hI := inv_runs h0
  have hL := (runs_inv (fun s => Inv s ∧ Lost 0 s) (fun s a s' es hh hs => ⟨inv_step hh.1 hs, lost_step hh.1 hh.2 hs⟩) bs _ _ _ ⟨hI, hl⟩ k2).2
  obtain ⟨o, ho, hm⟩ := hL.2
  refine ⟨by rw [k3]; simp, ?_, o, ho, hm⟩
  have := (hist_runs h).2.freed 0 o ho
  rw [hm] at this
  simpa [List.count_eq_zero] using this

/-- What is known about env `e` while the manager is being destroyed. (Concerns co_manager.cpp:161-200, co_env.cpp:30-427.) -/
structure Kept (e : Nat) (s : State) : Prop where
  has : ∃ o t, s.env e = some o ∧ o.conv = some t ∧ t ≠ cleaner
  clean : s.cleanUp = true
  start : s.cl ≠ .start
  place : ∀ o, s.env e = some o → o.noThread = true → o.mem = .freed ∨ e ∈ s.normal ∨ e ∈ s.expired
  top : s.cl = .top → ∀ o, s.env e = some o → o.noThread = true → o.mem = .freed ∨ e ∈ s.normal
  ended : s.cl = .ended → ∀ o, s.env e = some o → o.noThread = true → o.mem = .freed
  todo : ∀ l, s.cl = .stopping l → ∀ o, s.env e = some o → o.noThread = true → e ∈ s.normal → e ∈ l

theorem kept_guard {s : State} (hI : Inv s) {e : Nat} (h : Kept e s) (t : Nat) : Kept e (s.guard t).1 := by
  unfold State.guard
  split
  · obtain ⟨⟨o, u, ho, hu⟩, h2, h3, h4, h5, h6, h7⟩ := h
    have hlt := hI.bound e o ho
    constructor <;> dsimp only [State.convert, State.put] <;> first | assumption | grind
  · split <;> exact h

theorem kept_put {s s' : State} {e x : Nat} {o o' : Env} (h : Kept e s) (h1 : s'.env = upd s.env x (some o')) (h2 : s'.cl = s.cl) (h3 : s'.cleanUp = s.cleanUp)
    (h4 : s'.normal = s.normal) (h5 : s'.expired = s.expired) (hx : s.env x = some o) (hc : o'.conv = o.conv) (hm : o'.mem = o.mem)
    (hn : o'.noThread = true → o.noThread = true) : Kept e s' := by
  have hE : ∀ y, s'.env y = if y = x then some o' else s.env y := fun y => by rw [h1, upd_apply]
  obtain ⟨⟨p, u, hp, hu⟩, k2, k3, k4, k5, k6, k7⟩ := h
  clear h1
  constructor
  · by_cases hex : e = x
    · subst hex
      rw [hx] at hp; cases hp
      exact ⟨o', u, by simp [hE], by rw [hc]; exact hu.1, hu.2⟩
    · exact ⟨p, u, by simp [hE, hex, hp], hu⟩
  all_goals grind

theorem kept_remove {s : State} {e x : Nat} (h : Kept e s) (hx : ∀ o, s.env x = some o → o.noThread = false) : Kept e (s.remove x) := by
  obtain ⟨⟨p, u, hp, hu⟩, k2, k3, k4, k5, k6, k7⟩ := h
  constructor <;> dsimp only [State.remove] <;> first | assumption | grind

theorem kept_clean {s s' : State} {es : List Ev} {e : Nat} (hI : Inv s) (h : Kept e s) (hs : cleanStep s = some (s', es)) : Kept e s' := by
  have hok := hI.ok
  cases hcl : s.cl with
  | start => exact absurd hcl h.start
  | ended => simp [cleanStep, hcl] at hs
  | waiting =>
    simp only [cleanStep, hcl] at hs
    split at hs
    · simp only [Option.some.injEq, Prod.mk.injEq] at hs
      obtain ⟨rfl, rfl⟩ := hs
      obtain ⟨k1, k2, k3, k4, k5, k6, k7⟩ := h
      constructor <;> dsimp only <;> first | assumption | simp
    · simp at hs
  | top =>
    simp only [cleanStep, hcl, h.clean, if_true] at hs
    obtain ⟨k1, k2, k3, k4, k5, k6, k7⟩ := h
    split at hs
    all_goals
      simp only [Option.some.injEq, Prod.mk.injEq] at hs
      obtain ⟨rfl, rfl⟩ := hs
      constructor <;> dsimp only <;> first | assumption | grind
  | stopping todo =>
    cases todo with
    | nil =>
      simp only [cleanStep, hcl, Option.some.injEq, Prod.mk.injEq] at hs
      obtain ⟨rfl, rfl⟩ := hs
      obtain ⟨k1, k2, k3, k4, k5, k6, k7⟩ := h
      constructor <;> dsimp only <;> first | assumption | grind
    | cons x xs =>
      simp only [cleanStep, hcl] at hs
      split at hs
      · rename_i o ho
        split at hs
        · rename_i hn
          simp only [Option.some.injEq, Prod.mk.injEq] at hs
          obtain ⟨rfl, rfl⟩ := hs
          obtain ⟨k1, k2, k3, k4, k5, k6, k7⟩ := h
          constructor <;> dsimp only [State.remove] <;> first | assumption | grind
        · rename_i hn
          simp only [Option.some.injEq, Prod.mk.injEq] at hs
          obtain ⟨rfl, rfl⟩ := hs
          rw [hcl] at hok
          have hen := hok.2.1 x (by simp)
          have h1 : Inv (s.put x { o with told := true }) := by
            refine inv_put hI ho rfl rfl (by simp [hn]) (by simp) ?_ (fun hd he => (hI.normal x o he ho).2 hd) ?_ (hI.own x o ho)
            · intro hc; exact absurd (hI.curCl x o ho hc) hn
            · rintro (hx | hx)
              · exact absurd hx (hI.disj x hen)
              · exact absurd (hI.normal x o hen ho).1 hx
          have h2 : Kept e (s.put x { o with told := true }) :=
            kept_put h rfl rfl rfl rfl rfl ho rfl rfl (fun hy => hy)
          have h3 : ∀ p, (s.put x { o with told := true }).env e = some p → p.noThread = true → e ≠ x := by
            intro p hp hpn hex; subst hex; simp [State.put] at hp; subst hp; exact hn hpn
          have h4 := kept_guard h1 h2 cleaner
          have h5 : ((s.put x { o with told := true }).guard cleaner).1.cl = .stopping (x :: xs) := by rw [guard_cl]; exact hcl
          have h6 : ∀ p, ((s.put x { o with told := true }).guard cleaner).1.env e = some p → p.noThread = true → e ≠ x := by
            obtain ⟨p0, u0, hp0, _⟩ := h2.has
            have hlt := h1.bound e p0 hp0
            intro p hp hpn
            unfold State.guard at hp
            split at hp
            · refine h3 p ?_ hpn
              simp only [State.convert] at hp
              generalize s.put x { o with told := true } = q at hp hlt
              simp only [State.put] at hp
              grind
            · split at hp <;> exact h3 p hp hpn
          obtain ⟨k1, k2, k3, k4, k5, k6, k7⟩ := h4
          constructor <;> dsimp only <;> first | assumption | simp
          intro p hp hpn hm
          have := k7 _ h5 p hp hpn hm
          have := h6 p hp hpn
          simp_all
      · simp at hs
  | deleting todo =>
    rw [hcl] at hok
    cases todo with
    | nil =>
      simp only [cleanStep, hcl, Option.some.injEq, Prod.mk.injEq] at hs
      obtain ⟨rfl, rfl⟩ := hs
      obtain ⟨k1, k2, k3, k4, k5, k6, k7⟩ := h
      simp only [Cleaner.Ok] at hok
      constructor <;> dsimp only <;> first | assumption | grind
    | cons x xs =>
      simp only [cleanStep, hcl] at hs
      repeat' split at hs
      all_goals simp only [Option.some.injEq, Prod.mk.injEq, reduceCtorEq] at hs
      all_goals
        obtain ⟨rfl, rfl⟩ := hs
        obtain ⟨⟨p, u, hp, hu⟩, k2, k3, k4, k5, k6, k7⟩ := h
        constructor <;> dsimp only [State.put] <;> first | assumption | grind
  | joining x xs =>
    simp only [cleanStep, hcl] at hs
    repeat' split at hs
    all_goals simp only [Option.some.injEq, Prod.mk.injEq, reduceCtorEq] at hs
    all_goals
      obtain ⟨rfl, rfl⟩ := hs
      obtain ⟨⟨p, u, hp, hu⟩, k2, k3, k4, k5, k6, k7⟩ := h
      constructor <;> dsimp only [State.put] <;> first | assumption | grind
  | idle x xs =>
    simp only [cleanStep, hcl, Option.some.injEq, Prod.mk.injEq] at hs
    obtain ⟨rfl, rfl⟩ := hs
    have h2 := kept_guard hI h cleaner
    obtain ⟨k1, k2, k3, k4, k5, k6, k7⟩ := h2
    constructor <;> dsimp only <;> first | assumption | simp

theorem kept_same {s s' : State} {e : Nat} (h : Kept e s) (h1 : s'.env = s.env) (h2 : s'.cl = s.cl) (h3 : s'.cleanUp = s.cleanUp) (h4 : s'.normal = s.normal)
    (h5 : s'.expired = s.expired) : Kept e s' := by
  obtain ⟨k1, k2, k3, k4, k5, k6, k7⟩ := h
  constructor
  · rw [h1]; exact k1
  · rw [h3]; exact k2
  · rw [h2]; exact k3
  · rw [h1, h4, h5]; exact k4
  · rw [h1, h2, h4]; exact k5
  · rw [h1, h2]; exact k6
  · rw [h1, h2, h4]; exact k7

theorem kept_step {s s' : State} {a : Act} {es : List Ev} {e : Nat} (hI : Inv s) (h : Kept e s) (hs : step s a = some (s', es)) : Kept e s' := by
  have hmp : s.mp ≠ .running := hI.mp.1 h.clean
  cases a
  case use t =>
    simp only [step] at hs
    repeat' split at hs
    all_goals simp only [Option.some.injEq, reduceCtorEq] at hs
    · cases hs; exact h
    · have := congrArg Prod.fst hs; dsimp only at this; subst this; exact kept_guard hI h t
    · have := congrArg Prod.fst hs; dsimp only at this; subst this; exact kept_guard hI h t
  case destroy => simp [step, hmp] at hs; split at hs <;> simp at hs
  case clean => exact kept_clean hI h hs
  case create => simp [step, h.clean] at hs
  all_goals
    simp only [step] at hs
    repeat' split at hs
    all_goals first | (simp only [reduceCtorEq] at hs; done) | skip
    all_goals simp only [Option.some.injEq, Prod.mk.injEq] at hs
    all_goals (have e1 := And.left hs; clear hs; subst e1)
  all_goals first
    | exact h
    | exact kept_same h rfl rfl rfl rfl rfl
    | exact kept_put h rfl rfl rfl rfl rfl (by assumption) (by rfl) (by rfl) (by first | exact fun x => x | simp)
    | skip
  · -- expire
    rename_i x _ o ho hp _
    have hno : o.noThread = false := by
      cases hn : o.noThread with
      | false => rfl
      | true => have := (hI.noTh x o ho hn).2.1; grind
    refine kept_remove (kept_put h rfl rfl rfl rfl rfl ho (by rfl) (by rfl) (by exact fun x => x)) ?_
    intro p hp'; simp [State.put] at hp'; subst hp'; exact hno
  · -- spurious
    obtain ⟨k1, k2, k3, k4, k5, k6, k7⟩ := h
    constructor <;> dsimp only <;> first | assumption | simp

theorem kept_destroy {s s' : State} {es : List Ev} {e t : Nat} {o : Env} (hI : Inv s) (hs : step s .destroy = some (s', es)) (hcl : s.cl ≠ .start)
    (he : s.env e = some o) (ho : o.conv = some t) (ht : t ≠ cleaner) : Kept e s' := by
  have hq : s.mp = .running ∧ s.cl.locked = false ∧ s' = s.setCleanUp.1 := by
    simp only [step] at hs
    repeat' split at hs
    all_goals simp only [Option.some.injEq, reduceCtorEq] at hs
    · rename_i hc
      exact ⟨hc.1, hc.2.1, (congrArg Prod.fst hs).symm⟩
    · rename_i hc
      exact ⟨hc.1, hc.2, (congrArg Prod.fst hs).symm⟩
  obtain ⟨hr, hl, rfl⟩ := hq
  have hcu : s.cleanUp = false := by
    cases hc : s.cleanUp with
    | false => rfl
    | true => exact absurd hr (hI.mp.1 hc)
  have hw : s.cl = .waiting := by
    cases hc : s.cl with
    | waiting => rfl
    | start => exact absurd hc hcl
    | ended => have := hI.ended hc; rw [hcu] at this; cases this
    | _ => rw [hc] at hl; simp [Cleaner.locked] at hl
  have hk : Kept e s.cleaned := by
    have hE : ∀ p, s.cleaned.env e = some p → p.conv = o.conv ∧ p.noThread = o.noThread := by
      intro p hp
      simp only [State.cleaned] at hp
      split at hp
      · simp [he] at hp; subst hp; exact ⟨rfl, rfl⟩
      · rw [he] at hp; cases hp; exact ⟨rfl, rfl⟩
    constructor
    · simp only [State.cleaned]
      split
      · exact ⟨{ o with told := true }, t, by simp [he], ho, ht⟩
      · exact ⟨o, t, he, ho, ht⟩
    · rfl
    · simp [State.cleaned, hw]
    · intro p hp hpn
      have hon : o.noThread = true := by rw [← (hE p hp).2]; exact hpn
      refine .inr (.inr ?_)
      have := hI.clN e o hcu he hon
      simp [State.cleaned, this, State.noTh, he, hon]
    all_goals simp [State.cleaned, hw]
  unfold State.setCleanUp
  split
  · exact hk
  · exact kept_guard (inv_clean1 hI hr hl) hk main

/-- **C130, at the end, partial.** If the clean-up thread has begun before the destructor of the manager, then when the destructor has returned every
env that threads of the user had before it, and in which none of them schedules, has been freed: what is left behind lasts no longer than the manager.
Missing: `C130_never_freed`, and that it lasts so long. -/
theorem C130_freed_with_manager_partial (as bs : List Act) (s1 s2 s3 : State) (e1 e2 e3 : List Ev) (h1 : runs step State.init as = some (s1, e1))
    (hcl : s1.cl ≠ .start) (hd : step s1 .destroy = some (s2, e2)) (h2 : runs step s2 bs = some (s3, e3)) (hdone : s3.mp = .done)
    {e t : Nat} {o o' : Env} (he : s1.env e = some o) (ho : o.conv = some t) (ht : t ≠ cleaner) (he' : s3.env e = some o') (hn : o'.noThread = true) :
    o'.mem = .freed := by
  have hI1 := inv_runs h1
  have hI2 := inv_step hI1 hd
  have hk := kept_destroy hI1 hd hcl he ho ht
  obtain ⟨hI3, hk3⟩ := runs_inv (fun s => Inv s ∧ Kept e s) (fun s a s' es hh hs => ⟨inv_step hh.1 hs, kept_step hh.1 hh.2 hs⟩) bs _ _ _ ⟨hI2, hk⟩ h2
  exact hk3.ended (hI3.done hdone) o' he' hn

/-- Two threads, one of which has ended; the clean-up thread waits when the destructor comes, and frees both envs. -/
example : ∃ s1 s2 s3 e1 e2, runs step State.init [.clean, .clean, .use 2, .use 3, .threadEnd 2] = some (s1, e1) ∧ s1.cl = .waiting ∧
    step s1 .destroy = some (s2, e2) ∧ runs step s2 (List.replicate 13 .clean ++ [.joined]) =
      some (s3, [.freed 0, .made 2, .freed 1, .expire 2, .freed 2, .useEnv (.thread cleaner) 2, .gone]) ∧ s3.mp = .done :=
  ⟨_, _, _, _, _, rfl, rfl, rfl, rfl, rfl⟩

end Verif.Shutdown
