import Verif.Timer.TimerInv

/-! # C65 – C69: timers -/

namespace Verif.Timer

/-! ## What a step can do -/

/-- Proof device: the state after a timer that fires once was started. (Concerns co_manager.cpp:181-505, co_timer.cpp:10-139.) -/
def State.fired (s : State) (x : Id) : State := ({ s with pend := s.pend ++ [x], pc := .top } : State).doStop x

/-- Proof device: the state after a repeating timer was started. (Concerns co_manager.cpp:181-505, co_timer.cpp:10-139.) -/
def State.refired (cfg : Id → Kind) (s : State) (x : Id) (d : Nat) : State :=
  ({ s.fired x with now := (s.fired x).now + d } : State).doStart cfg x

/-- Proof device: the kinds of steps. (Concerns co_manager.cpp:181-505, co_timer.cpp:10-139.) -/
inductive Case (cfg : Id → Kind) (s : State) (a : Act) (s' : State) (es : List Ev) : Prop
  | quiet (htm : s'.tm = s.tm) (hq : s'.q = s.q) (hp : s'.pend = s.pend) (hn : s.now ≤ s'.now)
      (he : es = [] ∨ es = [.exit] ∨ (es = [.ub] ∧ s.pc = .look ∧ s.q = []) ∨ (∃ x, es = [.startNop x]) ∨ (∃ x, es = [.stopNop x]))
  | start (x : Id) (ha : a = .start x) (hr : (s.tm x).running = false) (hf : s.pc.free = true) (hs : s' = s.doStart cfg x)
      (he : es = [.start x (s'.exp x)])
  | stop (x : Id) (ha : a = .stop x) (hr : (s.tm x).running = true) (hf : s.pc.free = true) (hs : s' = s.doStop x)
      (he : es = [.stop x])
  | once (d : Nat) (x : Id) (r : List Id) (ha : a = .thr d) (hl : (cfg x).loops = false) (hpc : s.pc = .look) (hq : s.q = x :: r)
      (hx : (s.tm x).expire ≤ s.now) (hs : s' = s.fired x) (he : es = [.fire x s.now, .stop x])
  | loop (d : Nat) (x : Id) (r : List Id) (ha : a = .thr d) (hl : (cfg x).loops = true) (hpc : s.pc = .look) (hq : s.q = x :: r)
      (hx : (s.tm x).expire ≤ s.now) (hs : s' = s.refired cfg x d) (he : es = [.fire x s.now, .stop x, .start x (s'.exp x)])
  | cb (x : Id) (ha : a = .cb x) (hx : x ∈ s.pend) (hs : s' = { s with pend := s.pend.erase x }) (he : es = [.cb x s.now])

theorem step_cases (cfg : Id → Kind) {s s' : State} {a : Act} {es : List Ev} (hI : Inv s)
    (hs : step cfg s a = some (s', es)) : Case cfg s a s' es := by
  simp only [step] at hs
  split at hs
  · simp at hs
  cases a with
  | tick d =>
    simp only [Option.some.injEq, Prod.mk.injEq] at hs
    obtain ⟨rfl, rfl⟩ := hs
    exact .quiet rfl rfl rfl (by simp) (.inl rfl)
  | start x =>
    simp only at hs
    split at hs
    · simp only [Option.some.injEq, Prod.mk.injEq] at hs
      obtain ⟨rfl, rfl⟩ := hs
      exact .quiet rfl rfl rfl (Nat.le_refl _) (by simp)
    · rename_i hnr
      split at hs
      · rename_i hf
        simp only [Option.some.injEq, Prod.mk.injEq] at hs
        obtain ⟨rfl, rfl⟩ := hs
        exact .start x rfl (by simpa using hnr) hf rfl rfl
      · simp at hs
  | stop x =>
    simp only at hs
    split at hs
    · simp only [Option.some.injEq, Prod.mk.injEq] at hs
      obtain ⟨rfl, rfl⟩ := hs
      exact .quiet rfl rfl rfl (Nat.le_refl _) (by simp)
    · rename_i hnr
      split at hs
      · rename_i hf
        simp only [Option.some.injEq, Prod.mk.injEq] at hs
        obtain ⟨rfl, rfl⟩ := hs
        exact .stop x rfl (by simpa using hnr) hf rfl rfl
      · simp at hs
  | thr d =>
    simp only at hs
    split at hs
    · simp only [Option.some.injEq, Prod.mk.injEq] at hs
      obtain ⟨rfl, rfl⟩ := hs
      exact .quiet rfl rfl rfl (Nat.le_refl _) (by simp)
    · repeat' split at hs
      all_goals simp only [Option.some.injEq, Prod.mk.injEq] at hs
      all_goals obtain ⟨rfl, rfl⟩ := hs
      all_goals exact .quiet rfl rfl rfl (Nat.le_refl _) (by simp)
    · simp only [Option.some.injEq, Prod.mk.injEq] at hs
      obtain ⟨rfl, rfl⟩ := hs
      exact .quiet rfl rfl rfl (Nat.le_refl _) (by simp)
    · repeat' split at hs
      all_goals simp only [Option.some.injEq, Prod.mk.injEq] at hs
      all_goals obtain ⟨rfl, rfl⟩ := hs
      all_goals exact .quiet rfl rfl rfl (Nat.le_refl _) (by simp)
    · rename_i hpc
      split at hs
      · rename_i hq
        simp only [Option.some.injEq, Prod.mk.injEq] at hs
        obtain ⟨rfl, rfl⟩ := hs
        exact .quiet rfl rfl rfl (Nat.le_refl _) (.inr (.inr (.inl ⟨rfl, hpc, hq⟩)))
      · rename_i x r hq
        split at hs
        · rename_i he
          have hb : (s.tm x).running = true := hI.run x (by rw [hq]; simp)
          simp only [hb, if_true] at hs
          split at hs
          · rename_i hl
            simp only [Option.some.injEq, Prod.mk.injEq] at hs
            obtain ⟨rfl, rfl⟩ := hs
            exact .loop d x r rfl hl hpc hq he rfl rfl
          · rename_i hl
            simp only [Option.some.injEq, Prod.mk.injEq] at hs
            obtain ⟨rfl, rfl⟩ := hs
            exact .once d x r rfl (by simpa using hl) hpc hq he rfl rfl
        · simp only [Option.some.injEq, Prod.mk.injEq] at hs
          obtain ⟨rfl, rfl⟩ := hs
          exact .quiet rfl rfl rfl (Nat.le_refl _) (by simp)
    · simp only [Option.some.injEq, Prod.mk.injEq] at hs
      obtain ⟨rfl, rfl⟩ := hs
      exact .quiet rfl rfl rfl (Nat.le_refl _) (by simp)
    · simp at hs
  | wake sp =>
    simp only at hs
    repeat' split at hs
    all_goals simp only [Option.some.injEq, Prod.mk.injEq, reduceCtorEq] at hs
    all_goals obtain ⟨rfl, rfl⟩ := hs
    all_goals exact .quiet rfl rfl rfl (Nat.le_refl _) (by simp)
  | cb x =>
    simp only at hs
    split at hs
    · rename_i hx
      simp only [Option.some.injEq, Prod.mk.injEq] at hs
      obtain ⟨rfl, rfl⟩ := hs
      exact .cb x rfl hx rfl rfl
    · simp at hs
  | clean =>
    simp only [Option.some.injEq, Prod.mk.injEq] at hs
    obtain ⟨rfl, rfl⟩ := hs
    exact .quiet rfl rfl rfl (Nat.le_refl _) (by simp)
  | cleanNotify =>
    simp only at hs
    split at hs
    · simp only [Option.some.injEq, Prod.mk.injEq] at hs
      obtain ⟨rfl, rfl⟩ := hs
      exact .quiet rfl rfl rfl (Nat.le_refl _) (by simp)
    · simp at hs

theorem fired_q {s : State} (hI : Inv s) {x : Id} {r : List Id} (hq : s.q = x :: r) : (s.fired x).q = r ∧ x ∉ r :=
  let h := fire_queue (fun _ => .abs 0) hI hq 0
  ⟨h.2.1, h.2.2.1⟩

theorem refired_q (cfg : Id → Kind) {s : State} (x : Id) (d : Nat) :
    (s.refired cfg x d).q = insert (s.refired cfg x d).exp x (s.fired x).q := rfl

/-- A timer gets into the queue only by being started. -/
theorem mem_step (cfg : Id → Kind) {s s' : State} {a : Act} {es : List Ev} (hI : Inv s)
    (hs : step cfg s a = some (s', es)) {y : Id} (hy : y ∈ s'.q) : y ∈ s.q ∨ ∃ e, Ev.start y e ∈ es := by
  cases step_cases cfg hI hs with
  | quiet htm hq hp hn he => exact .inl (hq ▸ hy)
  | start x ha hr hf hs he =>
    subst hs
    rw [(doStart_fields cfg s x).2.2.2.2.2.2] at hy
    rcases insert_mem_sub hy with rfl | hy
    · exact .inr ⟨(s.doStart cfg y).exp y, by rw [he]; simp⟩
    · exact .inl hy
  | stop x ha hr hf hs he =>
    subst hs
    exact .inl (((doStop_queue hI.sorted hI.run).2.2 y).1 hy).1
  | once d x r ha hl hpc hq hx hs he =>
    subst hs
    rw [(fired_q hI hq).1] at hy
    exact .inl (by rw [hq]; exact List.mem_cons_of_mem _ hy)
  | loop d x r ha hl hpc hq hx hs he =>
    subst hs
    rw [refired_q] at hy
    rcases insert_mem_sub hy with rfl | hy
    · exact .inr ⟨(s.refired cfg y d).exp y, by rw [he]; simp⟩
    · rw [(fired_q hI hq).1] at hy
      exact .inl (by rw [hq]; exact List.mem_cons_of_mem _ hy)
  | cb x ha hx hs he => subst hs; exact .inl hy

/-- Only the head of the queue fires. -/
theorem fire_step (cfg : Id → Kind) {s s' : State} {a : Act} {es : List Ev} (hI : Inv s)
    (hs : step cfg s a = some (s', es)) {x : Id} {t : Nat} {p q : List Ev} (hf : es = p ++ .fire x t :: q) :
    p = [] ∧ t = s.now ∧ (s.tm x).expire ≤ s.now ∧ ∃ r, s.q = x :: r := by
  cases step_cases cfg hI hs with
  | quiet htm hq hp hn he =>
    rcases he with he | he | ⟨he, _⟩ | ⟨z, he⟩ | ⟨z, he⟩
    all_goals
      rw [he] at hf
      cases p with
      | nil => simp at hf
      | cons a p => simp at hf
  | start z ha hr hf' hs he =>
    rw [he] at hf
    cases p with
    | nil => simp at hf
    | cons a p => simp at hf
  | stop z ha hr hf' hs he =>
    rw [he] at hf
    cases p with
    | nil => simp at hf
    | cons a p => simp at hf
  | once d z r ha hl hpc hq hx hs he =>
    rw [he] at hf
    cases p with
    | nil =>
      simp only [List.nil_append, List.cons.injEq, Ev.fire.injEq] at hf
      obtain ⟨⟨rfl, rfl⟩, _⟩ := hf
      exact ⟨rfl, rfl, hx, r, hq⟩
    | cons a p =>
      cases p with
      | nil => simp at hf
      | cons b p => simp at hf
  | loop d z r ha hl hpc hq hx hs he =>
    rw [he] at hf
    cases p with
    | nil =>
      simp only [List.nil_append, List.cons.injEq, Ev.fire.injEq] at hf
      obtain ⟨⟨rfl, rfl⟩, _⟩ := hf
      exact ⟨rfl, rfl, hx, r, hq⟩
    | cons a p =>
      cases p with
      | nil => simp at hf
      | cons b p =>
        cases p with
        | nil => simp at hf
        | cons c p => simp at hf
  | cb z ha hx hs he =>
    rw [he] at hf
    cases p with
    | nil => simp at hf
    | cons a p => simp at hf

/-- A timer that is not in the queue does not fire until it is started again. -/
theorem no_fire (cfg : Id → Kind) {y : Id} : ∀ (as : List Act) (s s' : State) (es : List Ev), Inv s → y ∉ s.q →
    runs (step cfg) s as = some (s', es) → (∀ e, Ev.start y e ∉ es) → (∀ t, Ev.fire y t ∉ es) ∧ y ∉ s'.q := by
  intro as
  induction as with
  | nil =>
    intro s s' es hI hy h _
    simp only [runs, Option.some.injEq, Prod.mk.injEq] at h
    obtain ⟨rfl, rfl⟩ := h
    exact ⟨by simp, hy⟩
  | cons a as ih =>
    intro s s' es hI hy h hns
    obtain ⟨s1, e1, e2, h1, h2, rfl⟩ := runs_cons h
    have hy1 : y ∉ s1.q := by
      intro hm
      rcases mem_step cfg hI h1 hm with hm | ⟨e, hm⟩
      · exact hy hm
      · exact hns e (List.mem_append_left _ hm)
    obtain ⟨h3, h4⟩ := ih s1 s' e2 (inv_step cfg hI h1) hy1 h2 (fun e hm => hns e (List.mem_append_right _ hm))
    refine ⟨?_, h4⟩
    intro t hm
    rcases List.mem_append.1 hm with hm | hm
    · obtain ⟨p, q, hpq⟩ := List.append_of_mem hm
      obtain ⟨_, _, _, r, hr⟩ := fire_step cfg hI h1 hpq
      exact hy (by rw [hr]; simp)
    · exact h3 t hm

/-! ## C65 -/

/-- **C65, not early.** A coroutine for the callback is created only for an armed timer whose expiry time has been reached. -/
theorem C65_not_early (cfg : Id → Kind) (t0 : Nat) (as : List Act) (s : State) (pre post : List Ev) (x : Id) (t : Nat)
    (h : runs (step cfg) (State.init cfg t0) as = some (s, pre ++ .fire x t :: post)) :
    ∃ e, armed pre x = some e ∧ e ≤ t := by
  obtain ⟨as1, a, as2, s1, s2, p1, p2, q1, q2, rfl, h1, h2, h3, rfl, rfl⟩ := runs_split as _ s pre _ post h
  have hI := inv_runs cfg t0 as1 s1 p1 h1
  obtain ⟨rfl, rfl, he, r, hr⟩ := fire_step cfg hI h2 rfl
  have ha := armed_runs cfg t0 as1 s1 p1 h1
  refine ⟨(s1.tm x).expire, ?_, he⟩
  rw [List.append_nil, ← ha]
  simp [State.armed, hI.run x (by rw [hr]; simp)]

/-- **C65, order.** If `x` fires before `y` and `y` was not started in between, then `y` was already armed when `x` fired, and its
expiry time is later. (A timer is never fired twice without being started in between.) -/
theorem C65_order (cfg : Id → Kind) (t0 : Nat) (as : List Act) (s : State) (pre mid post : List Ev) (x y : Id) (t t' : Nat)
    (h : runs (step cfg) (State.init cfg t0) as = some (s, pre ++ .fire x t :: (mid ++ .fire y t' :: post)))
    (hns : ∀ e, Ev.start y e ∉ mid) : ∃ e e', armed pre x = some e ∧ armed pre y = some e' ∧ e < e' ∧ e ≤ t := by
  obtain ⟨as1, a, as2, s1, s2, p1, p2, q1, q2, rfl, h1, h2, h3, rfl, hpost⟩ := runs_split as _ s pre _ _ h
  have hI := inv_runs cfg t0 as1 s1 p1 h1
  have ha := armed_runs cfg t0 as1 s1 p1 h1
  obtain ⟨rfl, rfl, he, r, hr⟩ := fire_step cfg hI h2 rfl
  have hI2 := inv_step cfg hI h2
  -- the later firing happens in the rest of the execution, and the events before it contain no start of `y`
  have hq1 : ∀ t', Ev.fire y t' ∉ q1 := by
    cases step_cases cfg hI h2 with
    | quiet htm hq hp hn he =>
      rcases he with he | he | ⟨he, _⟩ | ⟨z, he⟩ | ⟨z, he⟩ <;> simp at he
    | start z ha hr hf' hs he => simp at he
    | stop z ha hr hf' hs he => simp at he
    | once d z r ha hl hpc hq hx hs he =>
      simp only [List.nil_append, List.cons.injEq] at he
      rw [he.2]; simp
    | loop d z r ha hl hpc hq hx hs he =>
      simp only [List.nil_append, List.cons.injEq] at he
      rw [he.2]; simp
    | cb z ha hx hs he => simp at he
  have hsplit : ∃ m, mid = q1 ++ m ∧ q2 = m ++ .fire y t' :: post := by
    rcases List.append_eq_append_iff.1 hpost with ⟨m, hm1, hm2⟩ | ⟨m, hm1, hm2⟩
    · cases m with
      | nil => exact ⟨[], by simpa using hm1.symm, by simpa using hm2.symm⟩
      | cons z m =>
        simp only [List.cons_append, List.cons.injEq] at hm2
        exact absurd (by rw [hm1, ← hm2.1]; simp) (hq1 t')
    · exact ⟨m, hm1, hm2⟩
  obtain ⟨m, rfl, rfl⟩ := hsplit
  have hy2 : y ∈ s2.q := by
    obtain ⟨bs1, b, bs2, u1, u2, g1, g2, f1, f2, rfl, k1, k2, k3, rfl, _⟩ := runs_split as2 _ s m _ post h3
    have hIu : Inv u1 := runs_inv (step := step cfg) Inv (fun _ _ _ _ hI hs => inv_step cfg hI hs) bs1 _ u1 g1 hI2 k1
    obtain ⟨rfl, _, _, r', hr'⟩ := fire_step cfg hIu k2 rfl
    refine Classical.byContradiction fun hne => ?_
    refine (no_fire cfg bs1 s2 u1 g1 hI2 hne k1 ?_).2 (by rw [hr']; simp)
    intro e hm
    exact hns e (by simp [hm])
  have hy1 : y ∈ s1.q := by
    rcases mem_step cfg hI h2 hy2 with h | ⟨e, hm⟩
    · exact h
    · simp only [List.nil_append, List.mem_cons, reduceCtorEq, false_or] at hm
      exact absurd (List.mem_append_left _ hm) (hns e)
  -- `x` is the head of the queue and leaves it
  have hne : y ≠ x := by
    rintro rfl
    cases step_cases cfg hI h2 with
    | quiet htm hq hp hn he =>
      rcases he with he | he | ⟨he, _⟩ | ⟨z, he⟩ | ⟨z, he⟩ <;> simp at he
    | start z ha hr hf' hs he => simp at he
    | stop z ha hr hf' hs he => simp at he
    | once d z r' ha hl hpc hq hx hs he =>
      simp only [List.nil_append, List.cons.injEq, Ev.fire.injEq] at he
      obtain ⟨⟨rfl, _⟩, _⟩ := he
      rw [hs, (fired_q hI hq).1] at hy2
      exact (fired_q hI hq).2 hy2
    | loop d z r' ha hl hpc hq hx hs he =>
      simp only [List.nil_append, List.cons.injEq, Ev.fire.injEq] at he
      obtain ⟨⟨rfl, _⟩, hq1'⟩ := he
      exact hns (s2.exp y) (List.mem_append_left _ (by rw [hq1']; simp))
    | cb z ha hx hs he => simp at he
  have hsort := hI.sorted
  rw [hr] at hsort hy1
  have hlt := (List.pairwise_cons.1 hsort).1 y (by simpa [hne] using hy1)
  refine ⟨(s1.tm x).expire, (s1.tm y).expire, ?_, ?_, hlt, he⟩
  · rw [List.append_nil, ← ha]
    simp [State.armed, hI.run x (by rw [hr]; simp)]
  · rw [List.append_nil, ← ha]
    simp [State.armed, hI.run y (by rw [hr]; exact hy1)]

/-- Proof device: the created and the begun callbacks of `x`. (Concerns co_manager.cpp:181-505, co_timer.cpp:10-139.) -/
def fires (x : Id) (es : List Ev) : Nat := es.countP fun e => match e with | .fire y _ => y == x | _ => false

/-- See `fires`. (Concerns co_manager.cpp:181-505, co_timer.cpp:10-139.) -/
def cbs (x : Id) (es : List Ev) : Nat := es.countP fun e => match e with | .cb y _ => y == x | _ => false

theorem pend_step (cfg : Id → Kind) {s s' : State} {a : Act} {es tr : List Ev} (hI : Inv s)
    (hs : step cfg s a = some (s', es)) (x : Id) (h : s.pend.count x + cbs x tr = fires x tr) :
    s'.pend.count x + cbs x (tr ++ es) = fires x (tr ++ es) := by
  have happ : ∀ es', cbs x (tr ++ es') = cbs x tr + cbs x es' ∧ fires x (tr ++ es') = fires x tr + fires x es' := by
    intro es'; simp [cbs, fires, List.countP_append]
  rw [(happ es).1, (happ es).2]
  cases step_cases cfg hI hs with
  | quiet htm hq hp hn he =>
    rw [hp]
    rcases he with he | he | ⟨he, _⟩ | ⟨z, he⟩ | ⟨z, he⟩ <;> subst he <;> simp [cbs, fires] at * <;> omega
  | start z ha hr hf hs he =>
    subst hs
    rw [he, (doStart_fields cfg s z).2.2.2.1]
    simp [cbs, fires] at *; omega
  | stop z ha hr hf hs he =>
    subst hs
    rw [he, (doStop_fields s z).2.2.2.1]
    simp [cbs, fires] at *; omega
  | once d z r ha hl hpc hq hx hs he =>
    subst hs
    have : (s.fired z).pend = s.pend ++ [z] := rfl
    rw [he, this]
    by_cases hz : z = x <;> simp [cbs, fires, hz, List.count_append] at * <;> omega
  | loop d z r ha hl hpc hq hx hs he =>
    subst hs
    have : (s.refired cfg z d).pend = s.pend ++ [z] := rfl
    rw [he, this]
    by_cases hz : z = x <;> simp [cbs, fires, hz, List.count_append] at * <;> omega
  | cb z ha hx hs he =>
    subst hs
    rw [he]
    by_cases hz : z = x
    · subst hz
      have h1 := List.count_pos_iff.2 hx
      have h2 : cbs z [.cb z s.now] = 1 ∧ fires z [.cb z s.now] = 0 := by simp [cbs, fires]
      simp only [List.count_erase_self]
      omega
    · simp [cbs, fires, hz, List.count_erase_of_ne (Ne.symm hz)] at *
      omega

theorem pend_runs (cfg : Id → Kind) (t0 : Nat) (as : List Act) (s : State) (es : List Ev)
    (h : runs (step cfg) (State.init cfg t0) as = some (s, es)) (x : Id) : s.pend.count x + cbs x es = fires x es := by
  have := runs_hist (step := step cfg) (fun s tr => Inv s ∧ s.pend.count x + cbs x tr = fires x tr)
    (fun s a s' es tr hI hs => ⟨inv_step cfg hI.1 hs, pend_step cfg hI.1 hs x hI.2⟩)
    as (State.init cfg t0) s es [] ⟨inv_init cfg t0, by simp [State.init, cbs, fires]⟩ h
  simpa using this.2

/-- **C65, callbacks.** A callback begins at most as often as the timer fired. -/
theorem C65_callback_once (cfg : Id → Kind) (t0 : Nat) (as : List Act) (s : State) (es : List Ev)
    (h : runs (step cfg) (State.init cfg t0) as = some (s, es)) (x : Id) : cbs x es ≤ fires x es := by
  have := pend_runs cfg t0 as s es h x
  omega

/-- Proof device: all times in the history are past. (Concerns co_manager.cpp:181-505, co_timer.cpp:10-139.) -/
def Past (now : Nat) (es : List Ev) : Prop := ∀ x t, (Ev.fire x t ∈ es → t ≤ now) ∧ (Ev.cb x t ∈ es → t ≤ now)

theorem now_le (cfg : Id → Kind) {s s' : State} {a : Act} {es : List Ev} (hI : Inv s)
    (hs : step cfg s a = some (s', es)) : s.now ≤ s'.now := by
  cases step_cases cfg hI hs with
  | quiet htm hq hp hn he => exact hn
  | start z ha hr hf hs he => subst hs; exact Nat.le_refl _
  | stop z ha hr hf hs he => subst hs; exact Nat.le_refl _
  | once d z r ha hl hpc hq hx hs he => subst hs; exact Nat.le_refl _
  | loop d z r ha hl hpc hq hx hs he => subst hs; exact Nat.le_add_right _ _
  | cb z ha hx hs he => subst hs; exact Nat.le_refl _

theorem past_runs (cfg : Id → Kind) (t0 : Nat) (as : List Act) (s : State) (es : List Ev)
    (h : runs (step cfg) (State.init cfg t0) as = some (s, es)) : Past s.now es := by
  have := runs_hist (step := step cfg) (fun s tr => Inv s ∧ Past s.now tr)
    (fun s a s' es tr hI hs => by
      refine ⟨inv_step cfg hI.1 hs, ?_⟩
      have hle := now_le cfg hI.1 hs
      intro x t
      constructor
      · intro hm
        rcases List.mem_append.1 hm with hm | hm
        · exact Nat.le_trans ((hI.2 x t).1 hm) hle
        · obtain ⟨p, q, hpq⟩ := List.append_of_mem hm
          obtain ⟨_, rfl, _⟩ := fire_step cfg hI.1 hs hpq
          exact hle
      · intro hm
        rcases List.mem_append.1 hm with hm | hm
        · exact Nat.le_trans ((hI.2 x t).2 hm) hle
        · cases step_cases cfg hI.1 hs with
          | quiet htm hq hp hn he =>
            rcases he with he | he | ⟨he, _⟩ | ⟨z, he⟩ | ⟨z, he⟩ <;> subst he <;> simp at hm
          | start z ha hr hf hs he => rw [he] at hm; simp at hm
          | stop z ha hr hf hs he => rw [he] at hm; simp at hm
          | once d z r ha hl hpc hq hx hs he => rw [he] at hm; simp at hm
          | loop d z r ha hl hpc hq hx hs he => rw [he] at hm; simp at hm
          | cb z ha hx hs he =>
            rw [he] at hm
            simp at hm
            rw [hm.2]; exact hle)
    as (State.init cfg t0) s es [] ⟨inv_init cfg t0, by simp [Past]⟩ h
  simpa using this.2

/-- **C65, callbacks not early.** When a callback begins, its timer has fired before, at a time at which it was armed and
expired. -/
theorem C65_callback_not_early (cfg : Id → Kind) (t0 : Nat) (as : List Act) (s : State) (pre post : List Ev) (x : Id) (t : Nat)
    (h : runs (step cfg) (State.init cfg t0) as = some (s, pre ++ .cb x t :: post)) :
    ∃ p q t1 e, pre = p ++ .fire x t1 :: q ∧ armed p x = some e ∧ e ≤ t1 ∧ t1 ≤ t := by
  obtain ⟨as1, a, as2, s1, s2, p1, p2, q1, q2, rfl, h1, h2, h3, rfl, rfl⟩ := runs_split as _ s pre _ post h
  have hI := inv_runs cfg t0 as1 s1 p1 h1
  have hcb : p2 = [] ∧ t = s1.now ∧ x ∈ s1.pend := by
    cases step_cases cfg hI h2 with
    | quiet htm hq hp hn he =>
      rcases he with he | he | ⟨he, _⟩ | ⟨z, he⟩ | ⟨z, he⟩
      all_goals
        cases p2 with
        | nil => simp at he
        | cons a p => simp at he
    | start z ha hr hf' hs he =>
      cases p2 with
      | nil => simp at he
      | cons a p => simp at he
    | stop z ha hr hf' hs he =>
      cases p2 with
      | nil => simp at he
      | cons a p => simp at he
    | once d z r ha hl hpc hq hx hs he =>
      cases p2 with
      | nil => simp at he
      | cons a p =>
        cases p with
        | nil => simp at he
        | cons b p => simp at he
    | loop d z r ha hl hpc hq hx hs he =>
      cases p2 with
      | nil => simp at he
      | cons a p =>
        cases p with
        | nil => simp at he
        | cons b p =>
          cases p with
          | nil => simp at he
          | cons c p => simp at he
    | cb z ha hx hs he =>
      cases p2 with
      | nil =>
        simp only [List.nil_append, List.cons.injEq, Ev.cb.injEq] at he
        obtain ⟨⟨rfl, rfl⟩, _⟩ := he
        exact ⟨rfl, rfl, hx⟩
      | cons a p => simp at he
  obtain ⟨rfl, rfl, hx⟩ := hcb
  have hc := pend_runs cfg t0 as1 s1 p1 h1 x
  have hpos := List.count_pos_iff.2 hx
  have hf : 0 < fires x p1 := by omega
  obtain ⟨e, he, hm⟩ := List.countP_pos_iff.1 hf
  cases e with
  | fire y t1 =>
    simp at hm
    subst hm
    obtain ⟨p, q, rfl⟩ := List.append_of_mem he
    obtain ⟨e, h4, h5⟩ := C65_not_early cfg t0 as1 s1 p q y t1 h1
    refine ⟨p, q, t1, e, by simp, h4, h5, ?_⟩
    exact ((past_runs cfg t0 as1 s1 _ h1) y t1).1 he
  | _ => simp at hm

/-- Queued timers have different expiry times. -/
theorem exp_inj {exp : Id → Nat} : ∀ {q : List Id}, q.Pairwise (fun a b => exp a < exp b) → ∀ {y z : Id}, y ∈ q → z ∈ q →
    exp y = exp z → y = z
  | [], _, y, z, h, _, _ => by simp at h
  | w :: q, hp, y, z, h1, h2, he => by
    have hp' := List.pairwise_cons.1 hp
    by_cases hy : y = w
    · by_cases hz : z = w
      · rw [hy, hz]
      · have := hp'.1 z (by simpa [hz] using h2)
        rw [hy] at he; omega
    · by_cases hz : z = w
      · have := hp'.1 y (by simpa [hy] using h1)
        rw [hz] at he; omega
      · exact exp_inj hp'.2 (by simpa [hy] using h1) (by simpa [hz] using h2) he

/-! ## C66, C67: equal expiry times -/

/-- No timer is started with the expiry time of another one that is armed. (Concerns co_manager.cpp:181-505, co_timer.cpp:10-139.) -/
def Distinct (es : List Ev) : Prop := ∀ pre x e post, es = pre ++ .start x e :: post → ∀ y, y ≠ x → armed pre y ≠ some e

theorem Distinct.left {es es' : List Ev} (h : Distinct (es ++ es')) : Distinct es := by
  intro pre x e post he
  exact h pre x e (post ++ es') (by rw [he]; simp)

theorem armed_snoc (es : List Ev) (e : Ev) : armed (es ++ [e]) = note (armed es) e := by simp [armed]

/-- Proof device: with distinct expiry times the queue holds exactly the armed timers. -/
theorem full_step (cfg : Id → Kind) {s s' : State} {a : Act} {es tr : List Ev} (hI : Inv s) (ha : s.armed = armed tr)
    (hd : Distinct (tr ++ es)) (hF : ∀ x, (s.tm x).running = true → x ∈ s.q) (hs : step cfg s a = some (s', es)) :
    ∀ x, (s'.tm x).running = true → x ∈ s'.q := by
  have keyStop : ∀ (u : State) (z : Id), Inv u → (∀ x, (u.tm x).running = true → x ∈ u.q) → z ∈ u.q →
      ∀ x, ((u.doStop z).tm x).running = true → x ∈ (u.doStop z).q := by
    intro u z hIu hFu hz x hx
    rw [(doStop_fields u z).2.2.2.2.2.1] at hx
    simp only [setTm] at hx
    split at hx
    · simp at hx
    · rename_i hne
      refine ((doStop_queue hIu.sorted hIu.run).2.2 x).2 ⟨hFu x hx, ?_⟩
      intro he
      have hxq := hFu x hx
      exact hne (exp_inj hIu.sorted hxq hz he)
  have keyStart : ∀ (u : State) (z : Id), Inv u → (∀ x, (u.tm x).running = true → x ∈ u.q) → z ∉ u.q →
      (∀ y, y ≠ z → u.armed y ≠ some ((u.doStart cfg z).exp z)) →
      ∀ x, ((u.doStart cfg z).tm x).running = true → x ∈ (u.doStart cfg z).q := by
    intro u z hIu hFu hz hdis x hx
    rw [(doStart_fields cfg u z).2.2.2.2.2.1] at hx
    simp only [setTm] at hx
    split at hx
    · rename_i he
      subst he
      refine (doStart_queue cfg hIu.sorted hIu.run hz).2.2.2 ?_
      intro w hw
      have := hdis w (by rintro rfl; exact hz hw)
      intro he
      apply this
      simp only [State.armed, hIu.run w hw, if_true]
      rw [← he]; rfl
    · rw [(doStart_fields cfg u z).2.2.2.2.2.2]
      exact insert_mem_of_mem (hFu x hx)
  cases step_cases cfg hI hs with
  | quiet htm hq hp hn he => intro x hx; rw [htm] at hx; rw [hq]; exact hF x hx
  | start z hact hr hf hs he =>
    subst hs
    refine keyStart s z hI hF (fun hm => by rw [hI.run z hm] at hr; simp at hr) ?_
    intro y hy
    rw [ha]
    exact hd tr z _ [] (by rw [he]) y hy
  | stop z hact hr hf hs he =>
    subst hs
    exact keyStop s z hI hF (hF z hr)
  | once d z r hact hl hpc hq hx hs he =>
    subst hs
    exact keyStop _ z (inv_plain hI.sorted hI.run (.inl rfl)) hF (by show z ∈ s.q; rw [hq]; simp)
  | loop d z r hact hl hpc hq hx hs he =>
    subst hs
    have h1 := keyStop ({ s with pend := s.pend ++ [z], pc := .top } : State) z (inv_plain hI.sorted hI.run (.inl rfl)) hF
      (by show z ∈ s.q; rw [hq]; simp)
    have h4 := (fire_queue cfg hI hq d).2.2.2.1
    refine keyStart ({ s.fired z with now := (s.fired z).now + d } : State) z (inv_plain h4.sorted h4.run (.inl rfl)) h1 ?_ ?_
    · show z ∉ (s.fired z).q
      rw [(fired_q hI hq).1]; exact (fired_q hI hq).2
    · intro y hy
      have hd' := hd (tr ++ [.fire z s.now, .stop z]) z ((s.refired cfg z d).exp z) [] (by rw [he]; simp) y hy
      have e1 : ({ s.fired z with now := (s.fired z).now + d } : State).armed = note s.armed (.stop z) :=
        armed_doStop ({ s with pend := s.pend ++ [z], pc := .top } : State) z
      rw [e1, ha]
      have e2 : ({ s.fired z with now := (s.fired z).now + d } : State).doStart cfg z = s.refired cfg z d := rfl
      rw [e2]
      simpa [armed, note] using hd'
  | cb x hact hx hs he => subst hs; exact hF

theorem full_runs (cfg : Id → Kind) (t0 : Nat) (as : List Act) (s : State) (es : List Ev)
    (h : runs (step cfg) (State.init cfg t0) as = some (s, es)) (hd : Distinct es) :
    ∀ x, (s.tm x).running = true → x ∈ s.q := by
  have := runs_hist (step := step cfg)
    (fun s tr => Inv s ∧ s.armed = armed tr ∧ (Distinct tr → ∀ x, (s.tm x).running = true → x ∈ s.q))
    (fun s a s' es tr hI hs => by
      refine ⟨inv_step cfg hI.1 hs, ?_, ?_⟩
      · rw [armed_append, ← hI.2.1]; exact armed_step cfg hs
      · intro hd
        exact full_step cfg hI.1 hI.2.1 hd (hI.2.2 hd.left) hs)
    as (State.init cfg t0) s es [] ⟨inv_init cfg t0, by funext x; simp [State.armed, State.init, armed], by simp [State.init]⟩ h
  simpa using this.2.2 hd

/-- An absolute timer always has the expiry time it was created with. -/
theorem abs_step (cfg : Id → Kind) {s s' : State} {a : Act} {es : List Ev} (hI : Inv s)
    (hs : step cfg s a = some (s', es)) (habs : ∀ x t, cfg x = .abs t → s.exp x = t) : ∀ x t, cfg x = .abs t → s'.exp x = t := by
  intro x t hk
  have he := habs x t hk
  have hstart : ∀ (U : State) z, U.exp x = t → (U.doStart cfg z).exp x = t := by
    intro U z hU
    by_cases hz : x = z
    · subst hz
      simpa [State.exp, State.doStart, State.notify, setTm, expiry, hk] using hU
    · rw [doStart_exp_other cfg U z x hz]; exact hU
  have hstop : ∀ (U : State) z, U.exp x = t → (U.doStop z).exp x = t := by
    intro U z hU
    rw [(doStop_fields U z).2.2.2.2.2.2.1]; exact hU
  cases step_cases cfg hI hs with
  | quiet htm hq hp hn he' => simpa [State.exp, htm] using he
  | start z ha hr hf hs he' => subst hs; exact hstart _ _ he
  | stop z ha hr hf hs he' => subst hs; exact hstop _ _ he
  | once d z r ha hl hpc hq hx hs he' => subst hs; exact hstop _ _ he
  | loop d z r ha hl hpc hq hx hs he' =>
    subst hs
    exact hstart _ z (hstop ({ s with pend := s.pend ++ [z], pc := .top } : State) z he)
  | cb z ha hx hs he' => subst hs; exact he

theorem abs_runs (cfg : Id → Kind) (t0 : Nat) (as : List Act) (s : State) (es : List Ev)
    (h : runs (step cfg) (State.init cfg t0) as = some (s, es)) : ∀ x t, cfg x = .abs t → s.exp x = t :=
  (runs_inv (step := step cfg) (fun s => Inv s ∧ ∀ x t, cfg x = .abs t → s.exp x = t)
    (fun _ _ _ _ hI hs => ⟨inv_step cfg hI.1 hs, abs_step cfg hI.1 hs hI.2⟩) as _ s es
    ⟨inv_init cfg t0, fun x t hk => by simp [State.init, State.exp, hk]⟩ h).2

/-- Steps of the timer thread. (Concerns co_manager.cpp:181-505, co_timer.cpp:10-139.) -/
def Act.thread : Act → Bool
  | .thr _ => true
  | .wake _ => true
  | _ => false

/-- What the rest of the program may do while we wait for `x`, which expires at `e`, to fire: anything but stop `x`, start a timer
for an instant earlier than `e`, or destroy the manager. (Concerns co_manager.cpp:181-505, co_timer.cpp:10-139.) -/
def Act.allowed (cfg : Id → Kind) (x : Id) (e : Nat) : Act → Prop
  | .stop y => y ≠ x
  | .start y => ∀ t, cfg y = .abs t → e ≤ t
  | .clean => False
  | _ => True

/-- Proof device: steps of the timer thread until it looks at the queue. (Concerns co_manager.cpp:181-505, co_timer.cpp:10-139.) -/
def Pc.weight : Pc → Nat
  | .look => 0
  | .top => 1
  | .woken => 1
  | .wait => 2
  | .until _ => 2
  | .init => 2
  | _ => 3

/-- Proof device: timers that fire before `x`. (Concerns co_manager.cpp:181-505, co_timer.cpp:10-139.) -/
def State.before (s : State) (x : Id) : Nat := s.q.countP fun y => decide (s.exp y < s.exp x)

theorem insert_before {exp : Id → Nat} {x z : Id} (hz : exp x ≤ exp z) : ∀ {q : List Id},
    (insert exp z q).countP (fun y => decide (exp y < exp x)) = q.countP fun y => decide (exp y < exp x)
  | [] => by simp [insert]; omega
  | w :: q => by
    simp only [insert]
    split
    · rw [List.countP_cons_of_neg (by simp; omega)]
    · split
      · simp only [List.countP_cons, insert_before hz]
      · rfl

theorem countP_congr' {p p' : Id → Bool} : ∀ {q : List Id}, (∀ y ∈ q, p y = p' y) → q.countP p = q.countP p'
  | [], _ => rfl
  | w :: q, h => by
    simp only [List.countP_cons]
    rw [h w (List.mem_cons_self ..), countP_congr' (fun y hy => h y (List.mem_cons_of_mem _ hy))]

/-- Proof device: `x` is queued and due, and the timer thread is alive. (Concerns co_manager.cpp:181-505, co_timer.cpp:10-139.) -/
structure Due (cfg : Id → Kind) (x : Id) (e : Nat) (s : State) : Prop where
  inv : Inv s
  abs : ∀ y t, cfg y = .abs t → s.exp y = t
  mem : x ∈ s.q
  exp : s.exp x = e
  due : e ≤ s.now
  live : s.clean = false
  alive : s.pc ≠ .exited ∧ s.pc ≠ .crashed

theorem due_step (cfg : Id → Kind) {x : Id} {e : Nat} {s s' : State} {a : Act} {es : List Ev} (hD : Due cfg x e s)
    (hF : ∀ x, (s.tm x).running = true → x ∈ s.q) (hal : a.allowed cfg x e)
    (hs : step cfg s a = some (s', es)) :
    (∃ t, Ev.fire x t ∈ es) ∨ (Due cfg x e s' ∧ 2 * s'.before x + s'.pc.weight + (if a.thread then 1 else 0) ≤
      2 * s.before x + s.pc.weight) := by
  obtain ⟨hI, habs, hmem, hexp, hdue, hlive, halive⟩ := hD
  have habs' := abs_step cfg hI hs habs
  have hI' := inv_step cfg hI hs
  have hnow := now_le cfg hI hs
  have hq0 : s.q ≠ [] := by intro h; rw [h] at hmem; simp at hmem
  -- a step that leaves the timers and the queue alone
  have plain : s'.tm = s.tm → s'.q = s.q → s'.clean = s.clean → s'.pc ≠ .exited ∧ s'.pc ≠ .crashed →
      s'.pc.weight + (if a.thread then 1 else 0) ≤ s.pc.weight →
      Due cfg x e s' ∧ 2 * s'.before x + s'.pc.weight + (if a.thread then 1 else 0) ≤ 2 * s.before x + s.pc.weight := by
    intro h1 h2 h3 h4 h5
    have hexp' : s'.exp = s.exp := by funext y; simp [State.exp, h1]
    refine ⟨⟨hI', habs', by rw [h2]; exact hmem, by rw [hexp']; exact hexp, by omega, by rw [h3]; exact hlive, h4⟩, ?_⟩
    have : s'.before x = s.before x := by simp [State.before, h2, hexp']
    omega
  -- the head is not `x`: it fires
  have hfire : ∀ z r, s.q = z :: r → z ≠ x → s.pc = .look → x ∈ (s.fired z).q ∧ (s.fired z).exp = s.exp ∧
      (s.fired z).before x + 1 = s.before x := by
    intro z r hq hne hpc
    have h1 := fired_q hI hq
    have hx : x ∈ r := by
      rw [hq] at hmem
      simpa [Ne.symm hne] using hmem
    have hexp2 : (s.fired z).exp = s.exp :=
      (doStop_fields ({ s with pend := s.pend ++ [z], pc := .top } : State) z).2.2.2.2.2.2.1
    refine ⟨by rw [h1.1]; exact hx, hexp2, ?_⟩
    have hsort := hI.sorted
    rw [hq] at hsort
    have hlt := (List.pairwise_cons.1 hsort).1 x hx
    simp only [State.before, h1.1, hexp2, hq]
    rw [List.countP_cons_of_pos (by simpa using hlt)]
  have ha0 := step_cases cfg hI hs
  simp only [step] at hs
  rw [if_neg halive.2] at hs
  cases a with
  | tick d =>
    right
    simp only [Option.some.injEq, Prod.mk.injEq] at hs
    obtain ⟨rfl, rfl⟩ := hs
    exact plain rfl rfl rfl halive (by simp [Act.thread])
  | start y =>
    right
    simp only at hs
    split at hs
    · simp only [Option.some.injEq, Prod.mk.injEq] at hs
      obtain ⟨rfl, rfl⟩ := hs
      exact plain rfl rfl rfl halive (by simp [Act.thread])
    · rename_i hnr
      split at hs
      · simp only [Option.some.injEq, Prod.mk.injEq] at hs
        obtain ⟨rfl, rfl⟩ := hs
        have hy : y ∉ s.q := fun h => hnr (hI.run y h)
        have hne : x ≠ y := by rintro rfl; exact hy hmem
        have hge : s.exp x ≤ (s.doStart cfg y).exp y := by
          cases hk : cfg y with
          | rel i l =>
            have : (s.doStart cfg y).exp y = s.now + i := by
              simp [State.exp, State.doStart, State.notify, setTm, expiry, hk]
            omega
          | abs t =>
            have h1 := habs' y t hk
            have h2 := hal t hk
            omega
        have hxe := doStart_exp_other cfg s y x hne
        refine ⟨⟨hI', habs', ?_, by rw [hxe]; exact hexp, hdue, hlive, halive⟩, ?_⟩
        · rw [(doStart_fields cfg s y).2.2.2.2.2.2]
          exact insert_mem_of_mem hmem
        · have : (s.doStart cfg y).before x = s.before x := by
            simp only [State.before]
            rw [(doStart_fields cfg s y).2.2.2.2.2.2, insert_before (by rw [hxe]; exact hge)]
            refine countP_congr' fun w hw => ?_
            rw [hxe, doStart_exp_other cfg s y w (by rintro rfl; exact hy hw)]
          rw [this]
          simp [Act.thread, (doStart_fields cfg s y).2.1]
      · simp at hs
  | stop y =>
    right
    simp only at hs
    split at hs
    · simp only [Option.some.injEq, Prod.mk.injEq] at hs
      obtain ⟨rfl, rfl⟩ := hs
      exact plain rfl rfl rfl halive (by simp [Act.thread])
    · rename_i hr
      split at hs
      · simp only [Option.some.injEq, Prod.mk.injEq] at hs
        obtain ⟨rfl, rfl⟩ := hs
        have hyq := hF y (by simpa using hr)
        have hne : s.exp x ≠ s.exp y := fun he => hal (exp_inj hI.sorted hyq hmem he.symm)
        obtain ⟨_, f2, _, _, _, _, f7, f8⟩ := doStop_fields s y
        refine ⟨⟨hI', habs', ?_, by rw [f7]; exact hexp, hdue, hlive, halive⟩, ?_⟩
        · exact ((doStop_queue hI.sorted hI.run).2.2 x).2 ⟨hmem, hne⟩
        · have : (s.doStop y).before x ≤ s.before x := by
            simp only [State.before, f7, f8]
            exact List.Sublist.countP_le List.filter_sublist
          rw [f2]
          simp [Act.thread]
          omega
      · simp at hs
  | thr d =>
    simp only at hs
    split at hs
    · rename_i hpc
      right
      simp only [Option.some.injEq, Prod.mk.injEq] at hs
      obtain ⟨rfl, rfl⟩ := hs
      exact plain rfl rfl rfl (by simp) (by simp [Act.thread, hpc, Pc.weight])
    · rename_i hpc
      right
      rw [hlive] at hs
      simp only [Bool.false_eq_true, if_false, hq0, Option.some.injEq, Prod.mk.injEq] at hs
      obtain ⟨rfl, rfl⟩ := hs
      exact plain rfl rfl hlive.symm (by simp) (by simp [Act.thread, hpc, Pc.weight])
    · rename_i hpc
      exact absurd (hI.goWait hpc) hq0
    · rename_i hpc
      right
      rw [hlive] at hs
      simp only [Bool.false_eq_true, if_false, Option.some.injEq, Prod.mk.injEq] at hs
      obtain ⟨rfl, rfl⟩ := hs
      exact plain rfl rfl hlive.symm (by simp) (by simp [Act.thread, hpc, Pc.weight])
    · rename_i hpc
      split at hs
      · rename_i hq; exact absurd hq hq0
      · rename_i z r hq
        have hzx : s.exp z ≤ s.exp x := by
          have hsort := hI.sorted
          rw [hq] at hsort hmem
          rcases List.mem_cons.1 hmem with rfl | hx
          · exact Nat.le_refl _
          · exact Nat.le_of_lt ((List.pairwise_cons.1 hsort).1 x hx)
        have hzd : (s.tm z).expire ≤ s.now := by
          have : (s.tm z).expire = s.exp z := rfl
          omega
        by_cases hne : z = x
        · left
          subst hne
          cases ha0 with
          | quiet htm hq hp hn he =>
            exfalso
            rw [if_pos hzd] at hs
            split at hs <;> simp only [Option.some.injEq, Prod.mk.injEq] at hs <;> obtain ⟨rfl, rfl⟩ := hs <;>
              rcases he with he | he | ⟨he, _⟩ | ⟨w, he⟩ | ⟨w, he⟩ <;> simp at he
          | start w hact hr hf' hs he => simp at hact
          | stop w hact hr hf' hs he => simp at hact
          | once d' w r' hact hl hpc' hq' hx hs he =>
            rw [hq] at hq'
            simp only [List.cons.injEq] at hq'
            exact ⟨s.now, by rw [he, hq'.1]; simp⟩
          | loop d' w r' hact hl hpc' hq' hx hs he =>
            rw [hq] at hq'
            simp only [List.cons.injEq] at hq'
            exact ⟨s.now, by rw [he, hq'.1]; simp⟩
          | cb w hact hx hs he => simp at hact
        · right
          obtain ⟨f1, f2, f3⟩ := hfire z r hq hne hpc
          rw [if_pos hzd] at hs
          have hb : (s.tm z).running = true := hI.run z (by rw [hq]; simp)
          simp only [hb, if_true] at hs
          split at hs
          · rename_i hl
            simp only [Option.some.injEq, Prod.mk.injEq] at hs
            obtain ⟨hs, rfl⟩ := hs
            have hs : s' = s.refired cfg z d := hs.symm
            subst hs
            obtain ⟨i, hk⟩ : ∃ i, cfg z = .rel i true := by
              cases hc : cfg z with
              | abs t => rw [hc] at hl; simp [Kind.loops] at hl
              | rel i l => rw [hc] at hl; simp [Kind.loops] at hl; exact ⟨i, by rw [hl]⟩
            have hxe : (s.refired cfg z d).exp x = s.exp x := by
              have := doStart_exp_other cfg ({ s.fired z with now := (s.fired z).now + d } : State) z x (Ne.symm hne)
              have h2 : ({ s.fired z with now := (s.fired z).now + d } : State).exp = s.exp := f2
              rw [h2] at this
              exact this
            have hze : (s.refired cfg z d).exp z = s.now + d + i := by
              simp [State.exp, State.refired, State.doStart, State.notify, setTm, expiry, hk]
              rfl
            have hzr : z ∉ (s.fired z).q := by rw [(fired_q hI hq).1]; exact (fired_q hI hq).2
            refine ⟨⟨hI', habs', ?_, by rw [hxe]; exact hexp, by omega, hlive, by simp [State.refired, State.doStart, State.notify, State.fired, State.doStop]⟩, ?_⟩
            · rw [refired_q]; exact insert_mem_of_mem f1
            · have hbf : (s.refired cfg z d).before x = (s.fired z).before x := by
                simp only [State.before]
                rw [refired_q, insert_before (by omega), f2]
                refine countP_congr' fun w hw => ?_
                have hwz : w ≠ z := by rintro rfl; exact hzr hw
                have := doStart_exp_other cfg ({ s.fired z with now := (s.fired z).now + d } : State) z w hwz
                have h2 : ({ s.fired z with now := (s.fired z).now + d } : State).exp = s.exp := f2
                rw [h2] at this
                have this : (s.refired cfg z d).exp w = s.exp w := this
                rw [this, hxe]
              have hpc' : (s.refired cfg z d).pc = .top := rfl
              rw [hbf, hpc', hpc]
              simp [Pc.weight, Act.thread]
              omega
          · simp only [Option.some.injEq, Prod.mk.injEq] at hs
            obtain ⟨hs, rfl⟩ := hs
            have hs : s' = s.fired z := hs.symm
            subst hs
            have hpc' : (s.fired z).pc = .top := rfl
            refine ⟨⟨hI', habs', f1, by rw [f2]; exact hexp, hdue, hlive, by rw [hpc']; simp⟩, ?_⟩
            rw [hpc', hpc]
            simp [Pc.weight, Act.thread]
            omega
    · rename_i e' hpc
      right
      simp only [Option.some.injEq, Prod.mk.injEq] at hs
      obtain ⟨rfl, rfl⟩ := hs
      exact plain rfl rfl rfl (by simp) (by simp [Act.thread, hpc, Pc.weight])
    · simp at hs
  | wake sp =>
    right
    simp only at hs
    split at hs
    · rename_i hpc
      split at hs
      · simp only [Option.some.injEq, Prod.mk.injEq] at hs
        obtain ⟨rfl, rfl⟩ := hs
        exact plain rfl rfl rfl (by simp) (by simp [Act.thread, hpc, Pc.weight])
      · simp at hs
    · rename_i e' hpc
      split at hs
      · simp only [Option.some.injEq, Prod.mk.injEq] at hs
        obtain ⟨rfl, rfl⟩ := hs
        exact plain rfl rfl rfl (by simp) (by simp [Act.thread, hpc, Pc.weight])
      · simp at hs
    · simp at hs
  | cb y =>
    right
    simp only at hs
    split at hs
    · simp only [Option.some.injEq, Prod.mk.injEq] at hs
      obtain ⟨rfl, rfl⟩ := hs
      exact plain rfl rfl rfl halive (by simp [Act.thread])
    · simp at hs
  | clean => exact hal.elim
  | cleanNotify =>
    simp only at hs
    rw [hlive] at hs
    simp at hs

theorem exited_clean (cfg : Id → Kind) (t0 : Nat) (as : List Act) (s : State) (es : List Ev)
    (h : runs (step cfg) (State.init cfg t0) as = some (s, es)) : s.pc = .exited → s.clean = true := by
  refine runs_inv (step := step cfg) (fun s => s.pc = .exited → s.clean = true) ?_ as _ s es (by simp [State.init]) h
  intro s a s' es hI hs
  simp only [step] at hs
  split at hs
  · simp at hs
  cases a with
  | tick d => simp only [Option.some.injEq, Prod.mk.injEq] at hs; obtain ⟨rfl, rfl⟩ := hs; exact hI
  | start x =>
    simp only at hs
    repeat' split at hs
    all_goals simp only [Option.some.injEq, Prod.mk.injEq, reduceCtorEq] at hs
    all_goals obtain ⟨rfl, rfl⟩ := hs
    all_goals exact hI
  | stop x =>
    simp only at hs
    repeat' split at hs
    all_goals simp only [Option.some.injEq, Prod.mk.injEq, reduceCtorEq] at hs
    all_goals obtain ⟨rfl, rfl⟩ := hs
    all_goals exact hI
  | thr d =>
    simp only at hs
    split at hs
    · simp only [Option.some.injEq, Prod.mk.injEq] at hs; obtain ⟨rfl, rfl⟩ := hs; simp
    · split at hs
      · rename_i hc
        simp only [Option.some.injEq, Prod.mk.injEq] at hs; obtain ⟨rfl, rfl⟩ := hs; exact fun _ => hc
      · split at hs <;> simp only [Option.some.injEq, Prod.mk.injEq] at hs <;> obtain ⟨rfl, rfl⟩ := hs <;> simp
    · simp only [Option.some.injEq, Prod.mk.injEq] at hs; obtain ⟨rfl, rfl⟩ := hs; simp
    · split at hs
      · rename_i hc
        simp only [Option.some.injEq, Prod.mk.injEq] at hs; obtain ⟨rfl, rfl⟩ := hs; exact fun _ => hc
      · simp only [Option.some.injEq, Prod.mk.injEq] at hs; obtain ⟨rfl, rfl⟩ := hs; simp
    · split at hs
      · simp only [Option.some.injEq, Prod.mk.injEq] at hs; obtain ⟨rfl, rfl⟩ := hs; simp
      · rename_i x r hq
        split at hs
        · by_cases hb : (s.tm x).running = true
          · simp only [hb, if_true] at hs
            split at hs <;> simp only [Option.some.injEq, Prod.mk.injEq] at hs <;> obtain ⟨rfl, rfl⟩ := hs <;>
              simp [State.doStart, State.doStop, State.notify]
          · simp only [hb, if_false, Bool.false_eq_true] at hs
            split at hs <;> simp only [Option.some.injEq, Prod.mk.injEq] at hs <;> obtain ⟨rfl, rfl⟩ := hs <;>
              simp [State.doStart, State.notify]
        · simp only [Option.some.injEq, Prod.mk.injEq] at hs; obtain ⟨rfl, rfl⟩ := hs; simp
    · simp only [Option.some.injEq, Prod.mk.injEq] at hs; obtain ⟨rfl, rfl⟩ := hs; simp
    · simp at hs
  | wake sp =>
    simp only at hs
    repeat' split at hs
    all_goals simp only [Option.some.injEq, Prod.mk.injEq, reduceCtorEq] at hs
    all_goals obtain ⟨rfl, rfl⟩ := hs
    all_goals simp
  | cb x =>
    simp only at hs
    repeat' split at hs
    all_goals simp only [Option.some.injEq, Prod.mk.injEq, reduceCtorEq] at hs
    all_goals obtain ⟨rfl, rfl⟩ := hs
    all_goals exact hI
  | clean => simp only [Option.some.injEq, Prod.mk.injEq] at hs; obtain ⟨rfl, rfl⟩ := hs; simp
  | cleanNotify =>
    simp only at hs
    repeat' split at hs
    all_goals simp only [Option.some.injEq, Prod.mk.injEq, reduceCtorEq] at hs
    all_goals obtain ⟨rfl, rfl⟩ := hs
    all_goals exact hI

/-- **C66, the part that holds: no lost wake-up.** If no two armed timers ever have the same expiry time, then whenever an armed
timer is due the timer thread is not blocked: it can take a step by itself (without a spurious wake-up). -/
theorem C66_thread_enabled_partial (cfg : Id → Kind) (t0 : Nat) (as : List Act) (s : State) (es : List Ev)
    (h : runs (step cfg) (State.init cfg t0) as = some (s, es)) (hd : Distinct es) (x : Id) (e : Nat)
    (hx : armed es x = some e) (hdue : e ≤ s.now) (hc : s.clean = false) (hcr : s.pc ≠ .crashed) :
    (∃ q, step cfg s (.thr 0) = some q) ∨ (∃ q, step cfg s (.wake false) = some q) := by
  have hI := inv_runs cfg t0 as s es h
  have ha := armed_runs cfg t0 as s es h
  have hr : (s.tm x).running = true ∧ (s.tm x).expire = e := by
    rw [← ha] at hx
    simp only [State.armed] at hx
    split at hx
    · rename_i hr; exact ⟨hr, by simpa using hx⟩
    · simp at hx
  have hm := full_runs cfg t0 as s es h hd x hr.1
  have hq0 : s.q ≠ [] := by intro h; rw [h] at hm; simp at hm
  cases hpc : s.pc with
  | init => left; simp [step, hpc]
  | top => left; simp [step, hpc, hc, hq0]
  | goWait => left; simp [step, hpc]
  | woken => left; simp [step, hpc, hc]
  | goUntil e => left; simp [step, hpc]
  | wait =>
    right
    cases hn : s.notified with
    | true => simp [step, hpc, hn]
    | false => exact absurd (hI.wait hpc hn) hq0
  | «until» e' =>
    right
    cases hn : s.notified with
    | true => simp [step, hpc, hn]
    | false =>
      obtain ⟨z, r, hq, he⟩ := hI.untl e' hpc hn
      have : s.exp z ≤ s.exp x := by
        have hsort := hI.sorted
        rw [hq] at hsort hm
        rcases List.mem_cons.1 hm with rfl | hx
        · exact Nat.le_refl _
        · exact Nat.le_of_lt ((List.pairwise_cons.1 hsort).1 x hx)
      have h2 : s.exp x = e := hr.2
      have : e' ≤ s.now := by omega
      simp [step, hpc, hn, this]
  | look =>
    left
    simp only [step, hpc, reduceCtorEq, if_false]
    split
    · exact ⟨_, rfl⟩
    · split
      · split <;> exact ⟨_, rfl⟩
      · exact ⟨_, rfl⟩
  | exited => have := exited_clean cfg t0 as s es h hpc; rw [hc] at this; simp at this
  | crashed => exact absurd hpc hcr

/-- **C66, the part that holds.** If no two armed timers ever have the same expiry time, an armed timer that is due fires within
`2 k + 3` steps of the timer thread, `k` being the number of armed timers before it, whatever the other threads do meanwhile
(short of stopping it, starting timers for earlier instants, or destroying the manager). -/
theorem C66_fires_partial (cfg : Id → Kind) (t0 : Nat) (as bs : List Act) (s s' : State) (es es' : List Ev)
    (h : runs (step cfg) (State.init cfg t0) as = some (s, es)) (x : Id) (e : Nat)
    (hx : armed es x = some e) (hdue : e ≤ s.now) (hc : s.clean = false) (hcr : s.pc ≠ .crashed)
    (h' : runs (step cfg) s bs = some (s', es')) (hd : Distinct (es ++ es')) (hal : ∀ a ∈ bs, a.allowed cfg x e)
    (hlong : 2 * s.before x + 3 < bs.countP Act.thread) : ∃ t, Ev.fire x t ∈ es' := by
  have hI := inv_runs cfg t0 as s es h
  have ha := armed_runs cfg t0 as s es h
  have hr : (s.tm x).running = true ∧ (s.tm x).expire = e := by
    rw [← ha] at hx
    simp only [State.armed] at hx
    split at hx
    · rename_i hr; exact ⟨hr, by simpa using hx⟩
    · simp at hx
  have hF := full_runs cfg t0 as s es h hd.left
  have hD : Due cfg x e s := ⟨hI, abs_runs cfg t0 as s es h, hF x hr.1, hr.2, hdue, hc, ⟨fun hpc => by
    have := exited_clean cfg t0 as s es h hpc; rw [hc] at this; simp at this, hcr⟩⟩
  have key : ∀ (bs : List Act) (s : State) (tr es' : List Ev), Due cfg x e s → s.armed = armed tr →
      (∀ x, (s.tm x).running = true → x ∈ s.q) → runs (step cfg) s bs = some (s', es') → Distinct (tr ++ es') →
      (∀ a ∈ bs, a.allowed cfg x e) → (∃ t, Ev.fire x t ∈ es') ∨ bs.countP Act.thread ≤ 2 * s.before x + s.pc.weight := by
    intro bs
    induction bs with
    | nil => intro s tr es' _ _ _ _ _ _; right; simp
    | cons b bs ih =>
      intro s tr es' hD ha hF h hd hal
      obtain ⟨s1, e1, e2, h1, h2, rfl⟩ := runs_cons h
      rcases due_step cfg hD hF (hal b (List.mem_cons_self ..)) h1 with ⟨t, ht⟩ | ⟨hD1, hle⟩
      · exact .inl ⟨t, List.mem_append_left _ ht⟩
      · have hd1 : Distinct (tr ++ e1) := by rw [← List.append_assoc] at hd; exact hd.left
        rcases ih s1 (tr ++ e1) e2 hD1 (by rw [armed_append, ← ha]; exact armed_step cfg h1)
            (full_step cfg hD.inv ha hd1 hF h1) h2 (by rw [List.append_assoc]; exact hd)
            (fun a ha => hal a (List.mem_cons_of_mem _ ha)) with ⟨t, ht⟩ | hb
        · exact .inl ⟨t, List.mem_append_right _ ht⟩
        · right
          simp only [List.countP_cons]
          omega
  rcases key bs s es es' hD ha hF h' hd hal with h | h
  · exact h
  · have : s.pc.weight ≤ 3 := by cases s.pc <;> simp [Pc.weight]
    omega

/-- **C66, negation.** A timer started with the expiry time of a queued one does not get into the queue; although it counts as
running it never fires, whatever happens, until it is started again. -/
theorem C66_equal_expiry_never_fires (cfg : Id → Kind) (t0 : Nat) (as bs : List Act) (s s1 s2 : State) (es e1 e2 : List Ev)
    (h : runs (step cfg) (State.init cfg t0) as = some (s, es)) (x z : Id) (e : Nat) (hz : z ∈ s.q) (hze : s.exp z = e)
    (h1 : step cfg s (.start x) = some (s1, e1)) (he : e1 = [.start x e])
    (h2 : runs (step cfg) s1 bs = some (s2, e2)) (hns : ∀ e, Ev.start x e ∉ e2) :
    armed (es ++ e1) x = some e ∧ ∀ t, Ev.fire x t ∉ e2 := by
  have hI := inv_runs cfg t0 as s es h
  subst he
  refine ⟨by rw [armed_snoc]; simp [note], ?_⟩
  refine (no_fire cfg bs s1 s2 e2 (inv_step cfg hI h1) ?_ h2 hns).1
  cases step_cases cfg hI h1 with
  | quiet htm hq hp hn he => rcases he with he | he | ⟨he, _⟩ | ⟨w, he⟩ | ⟨w, he⟩ <;> simp at he
  | start w ha hr hf hs he =>
    simp only [Act.start.injEq] at ha
    subst ha
    simp only [List.cons.injEq, Ev.start.injEq, true_and, and_true] at he
    subst hs
    have hx : x ∉ s.q := fun h => by rw [hI.run x h] at hr; simp at hr
    intro hm
    exact (doStart_queue cfg hI.sorted hI.run hx).2.2.1 hm z hz (by rw [hze, he])
  | stop w ha hr hf hs he => simp at ha
  | once d w r ha hl hpc hq hx hs he => simp at ha
  | loop d w r ha hl hpc hq hx hs he => simp at ha
  | cb w ha hx hs he => simp at ha

/-- Two timers for the same instant. (Concerns co_manager.cpp:181-505, co_timer.cpp:10-139.) -/
def twoAbs : Id → Kind := fun _ => .abs 10

/-- **C66, witness.** Timers 0 and 1 for time 10 are started; 0 fires, and then the timer thread waits for new timers: 1 is
still counted as running but is lost. -/
theorem C66_witness : (runs (step twoAbs) (State.init twoAbs 0)
      [.thr 0, .thr 0, .thr 0, .start 0, .start 1, .wake false, .thr 0, .tick 10, .thr 0,
        .thr 0, .thr 0]).map (fun p => (p.1.pc, p.1.notified, p.1.q, p.1.now, p.2, armed p.2 1)) =
    some (.wait, false, [], 10, [.start 0 10, .start 1 10, .fire 0 10, .stop 0], some 10) := rfl

/-- **C67.** Starting a running timer and stopping a stopped one does nothing. -/
theorem C67_idempotent (cfg : Id → Kind) (t0 : Nat) (as : List Act) (s : State) (es : List Ev)
    (h : runs (step cfg) (State.init cfg t0) as = some (s, es)) (hcr : s.pc ≠ .crashed) (x : Id) :
    (∀ e, armed es x = some e → step cfg s (.start x) = some (s, [.startNop x])) ∧
    (armed es x = none → step cfg s (.stop x) = some (s, [.stopNop x])) := by
  have ha := armed_runs cfg t0 as s es h
  rw [← ha]
  simp only [State.armed, step, if_neg hcr]
  cases (s.tm x).running <;> simp

/-- **C67, the part that holds.** If no two armed timers ever have the same expiry time, stopping an armed timer removes it from
the queue and leaves every other timer where it was. -/
theorem C67_stop_exact_partial (cfg : Id → Kind) (t0 : Nat) (as : List Act) (s s' : State) (es es' : List Ev)
    (h : runs (step cfg) (State.init cfg t0) as = some (s, es)) (hd : Distinct es) (x : Id) (e : Nat)
    (hx : armed es x = some e) (hs : step cfg s (.stop x) = some (s', es')) :
    x ∉ s'.q ∧ ∀ y, y ≠ x → (y ∈ s'.q ↔ y ∈ s.q) ∧ s'.tm y = s.tm y := by
  have hI := inv_runs cfg t0 as s es h
  have ha := armed_runs cfg t0 as s es h
  have hF := full_runs cfg t0 as s es h hd
  have hr : (s.tm x).running = true := by
    rw [← ha] at hx
    simp only [State.armed] at hx
    split at hx
    · assumption
    · simp at hx
  cases step_cases cfg hI hs with
  | quiet htm hq hp hn he =>
    exfalso
    simp only [step] at hs
    split at hs
    · simp at hs
    · rw [if_neg (by simp [hr])] at hs
      split at hs
      · simp only [Option.some.injEq, Prod.mk.injEq] at hs
        obtain ⟨rfl, rfl⟩ := hs
        simp at he
      · simp at hs
  | start w ha hr hf hs he => simp at ha
  | stop w ha hr' hf hs' he =>
    simp only [Act.stop.injEq] at ha
    subst ha
    subst hs'
    have hq := (doStop_queue (x := x) hI.sorted hI.run).2.2
    refine ⟨fun hm => ((hq x).1 hm).2 rfl, ?_⟩
    intro y hy
    constructor
    · rw [hq y]
      constructor
      · exact fun h => h.1
      · intro hyq
        refine ⟨hyq, ?_⟩
        intro he
        exact hy (exp_inj hI.sorted hyq (hF x hr) he)
    · rw [(doStop_fields s x).2.2.2.2.2.1]
      simp [setTm, hy]
  | once d w r ha hl hpc hq hx hs he => simp at ha
  | loop d w r ha hl hpc hq hx hs he => simp at ha
  | cb w ha hx hs he => simp at ha

/-- **C67, negation.** If `y` was started with the expiry time of the queued timer `x` (and so was not queued itself), stopping
`y` removes `x`: `x` still counts as running, but never fires, whatever happens, until it is started again. -/
theorem C67_stop_removes_other (cfg : Id → Kind) (t0 : Nat) (as bs : List Act) (s s1 s2 : State) (es e2 : List Ev)
    (h : runs (step cfg) (State.init cfg t0) as = some (s, es)) (x y : Id) (hx : x ∈ s.q) (hy : y ∉ s.q)
    (hee : s.exp y = s.exp x) (h1 : step cfg s (.stop y) = some (s1, [.stop y]))
    (h2 : runs (step cfg) s1 bs = some (s2, e2)) (hns : ∀ e, Ev.start x e ∉ e2) :
    armed (es ++ [.stop y]) x = some (s.exp x) ∧ ∀ t, Ev.fire x t ∉ e2 := by
  have hI := inv_runs cfg t0 as s es h
  have ha := armed_runs cfg t0 as s es h
  have hne : x ≠ y := by rintro rfl; exact hy hx
  constructor
  · rw [armed_snoc, ← ha]
    simp [note, hne, State.armed, hI.run x hx, State.exp]
  · refine (no_fire cfg bs s1 s2 e2 (inv_step cfg hI h1) ?_ h2 hns).1
    cases step_cases cfg hI h1 with
    | quiet htm hq hp hn he => rcases he with he | he | ⟨he, _⟩ | ⟨w, he⟩ | ⟨w, he⟩ <;> simp at he
    | start w ha hr hf hs he => simp at ha
    | stop w ha hr' hf hs' he =>
      simp only [Act.stop.injEq] at ha
      subst ha
      subst hs'
      intro hm
      exact (((doStop_queue (x := y) hI.sorted hI.run).2.2 x).1 hm).2 hee.symm
    | once d w r ha hl hpc hq hx hs he => simp at ha
    | loop d w r ha hl hpc hq hx hs he => simp at ha
    | cb w ha hx hs he => simp at ha

/-- **C67, witness.** Timers 0 and 1 for the same instant are started and 1 is stopped: the queue is empty although 0 is running. -/
theorem C67_witness : ∃ s es, runs (step twoAbs) (State.init twoAbs 0) [.start 0, .start 1, .stop 1] = some (s, es) ∧
    s.q = [] ∧ armed es 0 = some 10 ∧ armed es 1 = none := ⟨_, _, rfl, rfl, rfl, rfl⟩

/-- Distinct expiry times: 0 (time 10) fires before 1 (time 20) although 1 was started first. -/
example : (runs (step fun x => .abs (10 * (x + 1))) (State.init (fun x => .abs (10 * (x + 1))) 0)
      [.start 1, .start 0, .tick 30, .thr 0, .thr 0, .thr 0, .thr 0, .thr 0]).map (·.2) =
    some [.start 1 20, .start 0 10, .fire 0 30, .stop 0, .fire 1 30, .stop 1] := rfl

/-- A repeating timer of interval 5, reset two ticks after it was found expired. -/
example : (runs (step fun _ => .rel 5 true) (State.init (fun _ => .rel 5 true) 0)
      [.start 0, .tick 7, .thr 0, .thr 0, .thr 2, .cb 0, .tick 5, .thr 0, .thr 0]).map (·.2) =
    some [.start 0 5, .fire 0 7, .stop 0, .start 0 14, .cb 0 9, .fire 0 14, .stop 0, .start 0 19] := rfl

/-! ## C68 -/

/-- **C68, the part that holds.** If at the moment `stop` returns every firing so far has had its callback begun, the callback
does not begin until the timer is started again. -/
theorem C68_stopped_partial (cfg : Id → Kind) (t0 : Nat) (as bs : List Act) (s s1 s2 : State) (es e1 e2 : List Ev)
    (h : runs (step cfg) (State.init cfg t0) as = some (s, es)) (x : Id) (hp : fires x es = cbs x es)
    (h1 : step cfg s (.stop x) = some (s1, e1)) (h2 : runs (step cfg) s1 bs = some (s2, e2))
    (hns : ∀ e, Ev.start x e ∉ e2) : ∀ t, Ev.cb x t ∉ e2 := by
  have hI := inv_runs cfg t0 as s es h
  have hI1 := inv_step cfg hI h1
  -- after `stop` the timer is not in the queue
  have hq1 : x ∉ s1.q := by
    cases step_cases cfg hI h1 with
    | quiet htm hq hp hn he =>
      have hsr : (s.tm x).running = false := by
        simp only [step] at h1
        split at h1
        · simp at h1
        · split at h1
          · assumption
          · split at h1
            · simp only [Option.some.injEq, Prod.mk.injEq] at h1
              obtain ⟨rfl, rfl⟩ := h1
              simp at he
            · simp at h1
      rw [hq]
      intro hm
      rw [hI.run x hm] at hsr
      simp at hsr
    | start w ha hr hf hs he => simp at ha
    | stop w ha hr' hf hs' he =>
      simp only [Act.stop.injEq] at ha
      subst ha
      subst hs'
      intro hm
      exact (((doStop_queue (x := x) hI.sorted hI.run).2.2 x).1 hm).2 rfl
    | once d w r ha hl hpc hq hx hs he => simp at ha
    | loop d w r ha hl hpc hq hx hs he => simp at ha
    | cb w ha hx hs he => simp at ha
  have hnf := (no_fire cfg bs s1 s2 e2 hI1 hq1 h2 hns).1
  have hrun2 : runs (step cfg) (State.init cfg t0) (as ++ (.stop x :: bs)) = some (s2, es ++ (e1 ++ e2)) := by
    refine runs_append h ?_
    simp only [runs, h1, h2]
  have hc := pend_runs cfg t0 _ s2 _ hrun2 x
  have hf0 : fires x e2 = 0 := by
    refine List.countP_eq_zero.2 ?_
    intro e he
    cases e with
    | fire y t => simp; rintro rfl; exact hnf t he
    | _ => simp
  have he1 : fires x e1 = 0 ∧ cbs x e1 = 0 := by
    cases step_cases cfg hI h1 with
    | quiet htm hq hp hn he =>
      rcases he with he | he | ⟨he, _⟩ | ⟨w, he⟩ | ⟨w, he⟩ <;> subst he <;> simp [fires, cbs]
    | start w ha hr hf hs he => simp at ha
    | stop w ha hr' hf hs' he => subst he; simp [fires, cbs]
    | once d w r ha hl hpc hq hx hs he => simp at ha
    | loop d w r ha hl hpc hq hx hs he => simp at ha
    | cb w ha hx hs he => simp at ha
  have happ : fires x (es ++ (e1 ++ e2)) = fires x es + (fires x e1 + fires x e2) ∧
      cbs x (es ++ (e1 ++ e2)) = cbs x es + (cbs x e1 + cbs x e2) := by
    simp [fires, cbs, List.countP_append]
  have : cbs x e2 = 0 := by omega
  intro t hm
  have := List.countP_eq_zero.1 this _ hm
  simp at this

/-- **C68, negation.** Whenever a timer has fired and its callback has not yet begun, stopping it (which then does nothing if
the timer fires once) does not prevent the callback: it can begin at once. -/
theorem C68_callback_after_stop (cfg : Id → Kind) (t0 : Nat) (as : List Act) (s s1 : State) (es e1 : List Ev)
    (h : runs (step cfg) (State.init cfg t0) as = some (s, es)) (x : Id) (hp : cbs x es < fires x es)
    (h1 : step cfg s (.stop x) = some (s1, e1)) : ∃ s2, step cfg s1 (.cb x) = some (s2, [.cb x s1.now]) := by
  have hI := inv_runs cfg t0 as s es h
  have hc := pend_runs cfg t0 as s es h x
  have hx : x ∈ s.pend := List.count_pos_iff.1 (by omega)
  simp only [step] at h1
  split at h1
  · simp at h1
  · rename_i hcr
    split at h1
    · simp only [Option.some.injEq, Prod.mk.injEq] at h1
      obtain ⟨rfl, rfl⟩ := h1
      simp [step, hcr, hx]
    · split at h1
      · simp only [Option.some.injEq, Prod.mk.injEq] at h1
        obtain ⟨rfl, rfl⟩ := h1
        have : (s.doStop x).pc = s.pc := rfl
        have h3 : (s.doStop x).pend = s.pend := rfl
        simp [step, this, hcr, h3, hx]
      · simp at h1

/-- **C68, witness.** The timer fires, the user stops it, the callback begins. -/
theorem C68_witness : ∃ s, runs (step twoAbs) (State.init twoAbs 10)
      [.start 0, .thr 0, .thr 0, .thr 0, .stop 0, .cb 0] =
    some (s, [.start 0 10, .fire 0 10, .stop 0, .stopNop 0, .cb 0 10]) := ⟨_, rfl⟩

/-! ## C69 -/

/-- **C69, negation.** Whenever the timer thread waits for a first timer (and the manager is not being destroyed), starting and
stopping any one timer before it has woken up makes it read the first element of the empty queue. -/
theorem C69_empty_queue_read (cfg : Id → Kind) (t0 : Nat) (as : List Act) (s : State) (es : List Ev)
    (h : runs (step cfg) (State.init cfg t0) as = some (s, es)) (hpc : s.pc = .wait) (hq : s.q = []) (hc : s.clean = false)
    (x : Id) (hx : armed es x = none) :
    ∃ s' es', runs (step cfg) s [.start x, .stop x, .wake false, .thr 0, .thr 0] = some (s', es') ∧ Ev.ub ∈ es' := by
  have ha := armed_runs cfg t0 as s es h
  have hr : (s.tm x).running = false := by
    rw [← ha] at hx
    simp only [State.armed] at hx
    split at hx
    · simp at hx
    · rename_i h; simpa using h
  simp [runs, step, hpc, hr, Pc.free, Pc.waiting, State.doStart, State.doStop, State.notify, setTm, hq, insert, erase,
    State.exp, hc]
  exact ⟨_, _, ⟨rfl, rfl⟩, by simp⟩

/-- **C69, spurious wake-ups.** So does a spurious wake-up. -/
theorem C69_spurious_wakeup (cfg : Id → Kind) (s : State) (hpc : s.pc = .wait) (hq : s.q = []) (hc : s.clean = false) :
    ∃ s', runs (step cfg) s [.wake true, .thr 0, .thr 0] = some (s', [.ub]) := by
  simp [runs, step, hpc, hq, hc]

theorem insert_ne_nil {exp : Id → Nat} {x : Id} {q : List Id} : insert exp x q ≠ [] := by
  cases q with
  | nil => simp [insert]
  | cons z q =>
    simp only [insert]
    split
    · simp
    · split <;> simp

/-- **C69, the part that holds.** In executions in which nobody but the timer thread stops timers and there are no spurious
wake-ups, the timer thread never reads an empty queue. -/
theorem C69_no_stop_safe_partial (cfg : Id → Kind) (t0 : Nat) (as : List Act) (s : State) (es : List Ev)
    (h : runs (step cfg) (State.init cfg t0) as = some (s, es)) (hns : ∀ a ∈ as, (∀ x, a ≠ .stop x) ∧ a ≠ .wake true) :
    Ev.ub ∉ es := by
  have key : ∀ (as : List Act) (s s' : State) (es : List Ev), Inv s →
      ((s.pc = .wait → s.notified = true → s.q ≠ [] ∨ s.clean = true) ∧ (s.pc = .woken → s.q ≠ [] ∨ s.clean = true) ∧
        (s.pc = .look → s.q ≠ [])) → runs (step cfg) s as = some (s', es) →
      (∀ a ∈ as, (∀ x, a ≠ .stop x) ∧ a ≠ .wake true) → Ev.ub ∉ es := by
    intro as
    induction as with
    | nil =>
      intro s s' es _ _ h _
      simp only [runs, Option.some.injEq, Prod.mk.injEq] at h
      obtain ⟨rfl, rfl⟩ := h
      simp
    | cons a as ih =>
      intro s s' es hI hJ h hns
      obtain ⟨s1, e1, e2, h1, h2, rfl⟩ := runs_cons h
      have hna := hns a (List.mem_cons_self ..)
      have hub : Ev.ub ∉ e1 := by
        cases step_cases cfg hI h1 with
        | quiet htm hq hp hn he =>
          rcases he with he | he | ⟨he, hl, hq⟩ | ⟨w, he⟩ | ⟨w, he⟩
          · simp [he]
          · simp [he]
          · exact absurd hq (hJ.2.2 hl)
          · simp [he]
          · simp [he]
        | start w ha hr hf hs he => simp [he]
        | stop w ha hr' hf hs' he => simp [he]
        | once d w r ha hl hpc hq hx hs he => simp [he]
        | loop d w r ha hl hpc hq hx hs he => simp [he]
        | cb w ha hx hs he => simp [he]
      have hJ1 : (s1.pc = .wait → s1.notified = true → s1.q ≠ [] ∨ s1.clean = true) ∧
          (s1.pc = .woken → s1.q ≠ [] ∨ s1.clean = true) ∧ (s1.pc = .look → s1.q ≠ []) := by
        simp only [step] at h1
        split at h1
        · simp at h1
        cases a with
        | tick d => simp only [Option.some.injEq, Prod.mk.injEq] at h1; obtain ⟨rfl, rfl⟩ := h1; exact hJ
        | start x =>
          simp only at h1
          split at h1
          · simp only [Option.some.injEq, Prod.mk.injEq] at h1; obtain ⟨rfl, rfl⟩ := h1; exact hJ
          · split at h1
            · simp only [Option.some.injEq, Prod.mk.injEq] at h1
              obtain ⟨rfl, rfl⟩ := h1
              have : (s.doStart cfg x).q ≠ [] := insert_ne_nil
              exact ⟨fun _ _ => .inl this, fun _ => .inl this, fun _ => this⟩
            · simp at h1
        | stop x => exact absurd rfl (hna.1 x)
        | thr d =>
          simp only at h1
          split at h1
          · simp only [Option.some.injEq, Prod.mk.injEq] at h1; obtain ⟨rfl, rfl⟩ := h1; simp
          · split at h1
            · simp only [Option.some.injEq, Prod.mk.injEq] at h1; obtain ⟨rfl, rfl⟩ := h1; simp
            · split at h1
              · simp only [Option.some.injEq, Prod.mk.injEq] at h1; obtain ⟨rfl, rfl⟩ := h1; simp
              · rename_i hq
                simp only [Option.some.injEq, Prod.mk.injEq] at h1; obtain ⟨rfl, rfl⟩ := h1; simp [hq]
          · simp only [Option.some.injEq, Prod.mk.injEq] at h1; obtain ⟨rfl, rfl⟩ := h1; simp
          · rename_i hpc
            split at h1
            · simp only [Option.some.injEq, Prod.mk.injEq] at h1; obtain ⟨rfl, rfl⟩ := h1; simp
            · rename_i hc
              simp only [Option.some.injEq, Prod.mk.injEq] at h1; obtain ⟨rfl, rfl⟩ := h1
              have := hJ.2.1 hpc
              simp only [Bool.not_eq_true] at hc
              rw [hc] at this
              simpa using this
          · split at h1
            · simp only [Option.some.injEq, Prod.mk.injEq] at h1; obtain ⟨rfl, rfl⟩ := h1; simp
            · rename_i x r hq
              split at h1
              · by_cases hb : (s.tm x).running = true
                · simp only [hb, if_true] at h1
                  split at h1 <;> simp only [Option.some.injEq, Prod.mk.injEq] at h1 <;> obtain ⟨rfl, rfl⟩ := h1 <;>
                    simp [State.doStart, State.doStop, State.notify]
                · simp only [hb, if_false, Bool.false_eq_true] at h1
                  split at h1 <;> simp only [Option.some.injEq, Prod.mk.injEq] at h1 <;> obtain ⟨rfl, rfl⟩ := h1 <;>
                    simp [State.doStart, State.notify]
              · simp only [Option.some.injEq, Prod.mk.injEq] at h1; obtain ⟨rfl, rfl⟩ := h1; simp
          · simp only [Option.some.injEq, Prod.mk.injEq] at h1; obtain ⟨rfl, rfl⟩ := h1; simp
          · simp at h1
        | wake sp =>
          cases sp with
          | true => exact absurd rfl hna.2
          | false =>
            simp only at h1
            split at h1
            · rename_i hpc
              split at h1
              · rename_i hn
                simp only [Option.some.injEq, Prod.mk.injEq] at h1; obtain ⟨rfl, rfl⟩ := h1
                refine ⟨by simp, fun _ => hJ.1 hpc (by simpa using hn), by simp⟩
              · simp at h1
            · split at h1
              · simp only [Option.some.injEq, Prod.mk.injEq] at h1; obtain ⟨rfl, rfl⟩ := h1; simp
              · simp at h1
            · simp at h1
        | cb x =>
          simp only at h1
          split at h1
          · simp only [Option.some.injEq, Prod.mk.injEq] at h1; obtain ⟨rfl, rfl⟩ := h1; exact hJ
          · simp at h1
        | clean =>
          simp only [Option.some.injEq, Prod.mk.injEq] at h1; obtain ⟨rfl, rfl⟩ := h1
          exact ⟨by simp, by simp, hJ.2.2⟩
        | cleanNotify =>
          simp only at h1
          split at h1
          · rename_i hc
            simp only [Option.some.injEq, Prod.mk.injEq] at h1; obtain ⟨rfl, rfl⟩ := h1
            exact ⟨fun _ _ => .inr hc, fun _ => .inr hc, hJ.2.2⟩
          · simp at h1
      have h3 := ih s1 s' e2 (inv_step cfg hI h1) hJ1 h2 (fun a ha => hns a (List.mem_cons_of_mem _ ha))
      intro hm
      rcases List.mem_append.1 hm with hm | hm
      · exact hub hm
      · exact h3 hm
  exact key as _ s es (inv_init cfg t0) (by simp [State.init]) h hns

/-! ## C85: the timer thread ends -/

/-- **C85, negation.** If the manager is destroyed while the timer thread is between its check of `clean_up__` and its wait, the
notification is lost: the thread waits, and only a spurious wake-up or another timer operation could wake it, so the destructor
waits for it for ever. -/
theorem C85_lost_notification (cfg : Id → Kind) (s : State) (hpc : s.pc = .goWait) (d : Nat) :
    ∃ s', runs (step cfg) s [.clean, .cleanNotify, .thr d] = some (s', []) ∧ s'.clean = true ∧ s'.pc = .wait ∧
      ∀ (as : List Act) (s'' : State) (es : List Ev), (∀ a ∈ as, (∀ x, a ≠ .start x) ∧ (∀ x, a ≠ .stop x) ∧ a ≠ .wake true ∧
        a ≠ .cleanNotify) → runs (step cfg) s' as = some (s'', es) → s''.pc = .wait := by
  refine ⟨_, by simp [runs, step, hpc, State.notify, Pc.waiting]; rfl, rfl, rfl, ?_⟩
  intro as s'' es hal h
  have key : ∀ (as : List Act) (u u' : State) (es : List Ev), u.pc = .wait → u.notified = false →
      (∀ a ∈ as, (∀ x, a ≠ .start x) ∧ (∀ x, a ≠ .stop x) ∧ a ≠ .wake true ∧ a ≠ .cleanNotify) →
      runs (step cfg) u as = some (u', es) → u'.pc = .wait := by
    intro as
    induction as with
    | nil =>
      intro u u' es hp _ _ h
      simp only [runs, Option.some.injEq, Prod.mk.injEq] at h
      exact h.1 ▸ hp
    | cons a as ih =>
      intro u u' es hp hn hal h
      obtain ⟨u1, e1, e2, h1, h2, rfl⟩ := runs_cons h
      have hna := hal a (List.mem_cons_self ..)
      have : u1.pc = .wait ∧ u1.notified = false := by
        simp only [step, hp] at h1
        rw [if_neg (by simp)] at h1
        cases a with
        | tick d => simp only [Option.some.injEq, Prod.mk.injEq] at h1; obtain ⟨rfl, rfl⟩ := h1; exact ⟨rfl, hn⟩
        | start x => exact absurd rfl (hna.1 x)
        | stop x => exact absurd rfl (hna.2.1 x)
        | thr d => simp at h1
        | wake sp =>
          cases sp with
          | true => exact absurd rfl hna.2.2.1
          | false => simp [hn] at h1
        | cb x =>
          simp only at h1
          split at h1
          · simp only [Option.some.injEq, Prod.mk.injEq] at h1; obtain ⟨rfl, rfl⟩ := h1; exact ⟨rfl, hn⟩
          · simp at h1
        | clean => simp only [Option.some.injEq, Prod.mk.injEq] at h1; obtain ⟨rfl, rfl⟩ := h1; exact ⟨rfl, hn⟩
        | cleanNotify => exact absurd rfl hna.2.2.2
      exact ih u1 u' e2 this.1 this.2 (fun a ha => hal a (List.mem_cons_of_mem _ ha)) h2
  exact key as _ s'' es rfl rfl hal h

/-- The state of the negation is reached. -/
example : ∃ s, runs (step twoAbs) (State.init twoAbs 0) [.thr 0, .thr 0] = some (s, []) ∧ s.pc = .goWait := ⟨_, rfl, rfl⟩

/-- **C85, the part that holds.** If the timer thread waits when the notification arrives, it exits. -/
theorem C85_exits_partial (cfg : Id → Kind) (s : State) (hpc : s.pc.waiting = true) :
    ∃ s' es, runs (step cfg) s [.clean, .cleanNotify, .wake false, .thr 0] = some (s', es) ∧ s'.pc = .exited := by
  cases h : s.pc with
  | wait => simp [runs, step, h, State.notify, Pc.waiting]
  | «until» e => simp [runs, step, h, State.notify, Pc.waiting]
  | _ => rw [h] at hpc; simp [Pc.waiting] at hpc

end Verif.Timer
