import Verif.Timer.TimerProps

/-! # C71: `sleep_until`

Coroutines that sleep, on top of the timer machine of `Timer.lean`. The scheduler appears only as the rule that a coroutine
whose `CO_CTX_FLAG_WAITING` is set is not resumed (co_ctx.cpp:141-144, co_env.cpp:216-228; see C45). Other code may start and stop
timers of its own, and may erase resources other than the coroutine itself from its wait set (late callbacks of timed waits). -/

namespace Verif.Timer.Sleep

open Verif.Timer

/-- Where a coroutine is in `sleep_until` (co_co.h:175-189). -/
inductive SPc
  | idle
  /-- before `enter_wait_resource_state`, :185 -/
  | called
  /-- before `timer->start()`, :186 -/
  | entered
  /-- before `yield()`, :188 (it may also be preempted here) -/
  | started
  | parked
deriving DecidableEq, Repr

/-- A coroutine: its place, the timer of its latest sleep, `wait_data__.resource` (`none` is the coroutine itself) and
`CO_CTX_FLAG_WAITING`. (Concerns co_co.h:175-189, co_ctx.cpp:141-207.) -/
structure Sl where
  pc : SPc
  x : Nat
  res : List (Option Nat)
  waiting : Bool

/-- State. `owner x` is the coroutine whose `sleep_until` created timer `x`. (co_co.h:175-189.) -/
structure State where
  T : Timer.State
  sl : Nat → Sl
  owner : Nat → Option Nat

/-- Update of one coroutine. (Concerns co_co.h:175-189, co_ctx.cpp:141-207.) -/
def setSl (f : Nat → Sl) (c : Nat) (v : Sl) : Nat → Sl := fun d => if d = c then v else f d

/-- Initially nobody sleeps. (Concerns co_co.h:175-189, co_ctx.cpp:141-207.) -/
def State.init (cfg : Nat → Kind) (t0 : Nat) : State := ⟨Timer.State.init cfg t0, fun _ => ⟨.idle, 0, [], false⟩, fun _ => none⟩

/-- `enter_wait_resource_state(rc)` (co_ctx.cpp:181-190). -/
def Sl.enter (v : Sl) (rc : Option Nat) : Sl := { v with res := if rc ∈ v.res then v.res else rc :: v.res, waiting := true }

/-- `leave_wait_resource_state(rc)` (co_ctx.cpp:192-207). -/
def Sl.leave (v : Sl) (rc : Option Nat) : Sl :=
  let r := v.res.filter (· ≠ rc)
  { v with res := r, waiting := if r = [] then false else v.waiting }

/-- Choices of the environment. (Concerns co_co.h:175-189, co_ctx.cpp:141-207.) -/
inductive Act
  /-- the timer thread, the clock, callbacks, and other users of timers -/
  | tm (a : Timer.Act)
  /-- `c` calls `sleep_until(t)`, creating the timer `x` -/
  | sleep (c x : Nat)
  | enter (c : Nat)
  | start (c : Nat)
  | park (c : Nat)
  /-- a late callback of something else -/
  | leave (c r : Nat)
  /-- the scheduler resumes `c` -/
  | resume (c : Nat)
deriving DecidableEq, Repr

/-- Events. (Concerns co_co.h:175-189, co_ctx.cpp:141-207.) -/
inductive Ev
  | tm (e : Timer.Ev)
  | sleep (c x t : Nat)
  | ret (c now : Nat)
deriving DecidableEq, Repr

/-- The callback of a sleep's timer (co_co.h:181-183). -/
def State.wake (s : State) (x : Nat) : State :=
  match s.owner x with
  | some c => { s with sl := setSl s.sl c ((s.sl c).leave none) }
  | none => s

/-- One step. (co_co.h:175-189, co_manager.cpp:349-385.) -/
def step (cfg : Nat → Kind) (s : State) (a : Act) : Option (State × List Ev) :=
  match a with
  | .tm (.start x) =>
    if s.owner x = none then (Timer.step cfg s.T (.start x)).map fun p => ({ s with T := p.1 }, p.2.map .tm) else none
  | .tm (.stop x) =>
    if s.owner x = none then (Timer.step cfg s.T (.stop x)).map fun p => ({ s with T := p.1 }, p.2.map .tm) else none
  | .tm (.cb x) => (Timer.step cfg s.T (.cb x)).map fun p => ({ s with T := p.1 }.wake x, p.2.map .tm)
  | .tm a => (Timer.step cfg s.T a).map fun p => ({ s with T := p.1 }, p.2.map .tm)
  | .sleep c x =>
    match cfg x with
    | .rel _ _ => none
    | .abs t =>
      if (s.sl c).pc = .idle ∧ s.owner x = none ∧ (s.T.tm x).running = false ∧ x ∉ s.T.pend then
        some ({ s with sl := setSl s.sl c { s.sl c with pc := .called, x := x },
                       owner := fun y => if y = x then some c else s.owner y }, [.sleep c x t])
      else none
  | .enter c =>
    if (s.sl c).pc = .called then
      some ({ s with sl := setSl s.sl c { (s.sl c).enter none with pc := .entered } }, [])
    else none
  | .start c =>
    if (s.sl c).pc = .entered then
      (Timer.step cfg s.T (.start (s.sl c).x)).map fun p =>
        ({ s with T := p.1, sl := setSl s.sl c { s.sl c with pc := .started } }, p.2.map .tm)
    else none
  | .park c =>
    if (s.sl c).pc = .started then some ({ s with sl := setSl s.sl c { s.sl c with pc := .parked } }, []) else none
  | .leave c r => some ({ s with sl := setSl s.sl c ((s.sl c).leave (some r)) }, [])
  | .resume c =>
    if (s.sl c).pc = .parked ∧ (s.sl c).waiting = false then
      some ({ s with sl := setSl s.sl c { s.sl c with pc := .idle } }, [.ret c s.T.now])
    else none

/-! ## Invariant -/

/-- Proof device: the coroutine's sleep has begun and its timer has not called back. (Concerns co_co.h:175-189, co_ctx.cpp:141-207.) -/
def SPc.asleep : SPc → Bool
  | .started | .parked => true
  | _ => false

/-- Proof device: the state of a sleep's timer. (Concerns co_co.h:175-189, co_ctx.cpp:141-207.) -/
structure SInv (cfg : Nat → Kind) (s : State) : Prop where
  inv : Inv s.T
  abs : ∀ x t, cfg x = .abs t → s.T.exp x = t
  due : ∀ x t, x ∈ s.T.pend → cfg x = .abs t → t ≤ s.T.now
  kind : ∀ x c, s.owner x = some c → ∃ t, cfg x = .abs t
  once : ∀ x c, s.owner x = some c → s.T.pend.count x + (if (s.T.tm x).running then 1 else 0) ≤ 1
  live : ∀ x c, s.owner x = some c → ((s.T.tm x).running = true ∨ x ∈ s.T.pend) →
    (s.sl c).x = x ∧ (s.sl c).pc.asleep = true ∧ none ∈ (s.sl c).res ∧ (s.sl c).waiting = true
  cur : ∀ c, (s.sl c).pc ≠ .idle → s.owner (s.sl c).x = some c
  ent : ∀ c, (s.sl c).pc = .entered → none ∈ (s.sl c).res ∧ (s.sl c).waiting = true
  early : ∀ c t, (s.sl c).pc.asleep = true → cfg (s.sl c).x = .abs t →
    (none ∈ (s.sl c).res ∧ (s.sl c).waiting = true) ∨ t ≤ s.T.now

/-- A timer step that leaves `tm`, `q`, `pend` of the sleepers' timers in order. -/
theorem timer_step (cfg : Nat → Kind) {T T' : Timer.State} {a : Timer.Act} {es : List Timer.Ev} (hI : Inv T)
    (hs : Timer.step cfg T a = some (T', es)) :
    Inv T' ∧ T.now ≤ T'.now ∧ ((∀ x t, cfg x = .abs t → T.exp x = t) → ∀ x t, cfg x = .abs t → T'.exp x = t) ∧
    (∀ x, x ∈ T'.pend → x ∈ T.pend ∨ T.exp x ≤ T'.now) := by
  have hn := now_le cfg hI hs
  refine ⟨inv_step cfg hI hs, hn, ?_, ?_⟩
  · exact abs_step cfg hI hs
  · intro x hx
    cases step_cases cfg hI hs with
    | quiet htm hq hp hn he' => exact .inl (hp ▸ hx)
    | start z ha hr hf hs he' => subst hs; exact .inl hx
    | stop z ha hr hf hs he' => subst hs; exact .inl hx
    | once d z r ha hl hpc hq hz hs he' =>
      subst hs
      have hx : x ∈ T.pend ++ [z] := hx
      rcases List.mem_append.1 hx with hx | hx
      · exact .inl hx
      · simp at hx; subst hx; exact .inr hz
    | loop d z r ha hl hpc hq hz hs he' =>
      subst hs
      have hx : x ∈ T.pend ++ [z] := hx
      rcases List.mem_append.1 hx with hx | hx
      · exact .inl hx
      · simp at hx; subst hx; exact .inr (Nat.le_trans hz hn)
    | cb z ha hx' hs he' => subst hs; exact .inl (List.mem_of_mem_erase hx)

/-- What a timer step does to a timer that it does not start: it does not become live, and stays "at most once". -/
theorem timer_live (cfg : Nat → Kind) {T T' : Timer.State} {a : Timer.Act} {es : List Timer.Ev} (hI : Inv T)
    (hs : Timer.step cfg T a = some (T', es)) (x t : Nat) (hk : cfg x = .abs t) (ha : a ≠ .start x) :
    (((T'.tm x).running = true ∨ x ∈ T'.pend) → (T.tm x).running = true ∨ x ∈ T.pend) ∧
    T'.pend.count x + (if (T'.tm x).running then 1 else 0) ≤ T.pend.count x + (if (T.tm x).running then 1 else 0) := by
  cases step_cases cfg hI hs with
  | quiet htm hq hp hn he' => rw [htm, hp]; exact ⟨id, Nat.le_refl _⟩
  | start z ha' hr hf hs he' =>
    subst hs
    have hz : x ≠ z := by rintro rfl; exact ha ha'
    have h1 : (T.doStart cfg z).tm x = T.tm x := by
      rw [(doStart_fields cfg T z).2.2.2.2.2.1]; simp [setTm, hz]
    have h2 : (T.doStart cfg z).pend = T.pend := rfl
    rw [h1, h2]; exact ⟨id, Nat.le_refl _⟩
  | stop z ha' hr hf hs he' =>
    subst hs
    have h2 : (T.doStop z).pend = T.pend := rfl
    rw [h2, (doStop_fields T z).2.2.2.2.2.1]
    simp only [setTm]
    by_cases hz : x = z
    · simp [hz]; exact fun h => .inr h
    · simp only [hz, if_false]; exact ⟨id, Nat.le_refl _⟩
  | once d z r ha' hl hpc hq hx hs he' =>
    subst hs
    have h2 : (T.fired z).pend = T.pend ++ [z] := rfl
    have h3 : (T.fired z).tm = setTm T.tm z ⟨(T.tm z).expire, false⟩ := rfl
    have hrun := hI.run z (by rw [hq]; simp)
    rw [h2, h3]
    simp only [setTm]
    by_cases hz : x = z
    · subst hz; simp [hrun, List.count_append]
    · simp [hz, List.count_append, List.count_cons, Ne.symm hz]
  | loop d z r ha' hl hpc hq hx hs he' =>
    subst hs
    have hz : x ≠ z := by rintro rfl; rw [hk] at hl; simp [Kind.loops] at hl
    have h2 : (T.refired cfg z d).pend = T.pend ++ [z] := rfl
    have h3 : (T.refired cfg z d).tm x = T.tm x := by
      simp [State.refired, State.fired, State.doStart, State.doStop, State.notify, setTm, hz]
    rw [h2, h3]
    simp [hz, List.count_append, List.count_cons, Ne.symm hz]
  | cb z ha' hx hs he' =>
    subst hs
    refine ⟨fun h => ?_, ?_⟩
    · rcases h with h | h
      · exact .inl h
      · exact .inr (List.mem_of_mem_erase h)
    · have : (T.pend.erase z).count x ≤ T.pend.count x := List.Sublist.count_le _ (List.erase_sublist ..)
      show (T.pend.erase z).count x + _ ≤ _
      simp only
      omega

theorem leave_none_other (v : Sl) (r : Nat) (h : none ∈ v.res ∧ v.waiting = true) :
    none ∈ (v.leave (some r)).res ∧ (v.leave (some r)).waiting = true := by
  have hm : none ∈ v.res.filter (· ≠ some r) := by simp [h.1]
  refine ⟨hm, ?_⟩
  have : v.res.filter (· ≠ some r) ≠ [] := by intro he; rw [he] at hm; simp at hm
  simp only [Sl.leave, this, if_false]
  exact h.2

theorem sinv_step (cfg : Nat → Kind) {s s' : State} {a : Act} {es : List Ev} (h : SInv cfg s)
    (hs : step cfg s a = some (s', es)) : SInv cfg s' := by
  -- a timer step that starts no sleeper's timer, and calls none back
  have plain : ∀ {T' : Timer.State} {b : Timer.Act} {es : List Timer.Ev}, Timer.step cfg s.T b = some (T', es) →
      (∀ x, b = .start x → s.owner x = none) → SInv cfg { s with T := T' } := by
    intro T' b es hb hst
    obtain ⟨h1, h2, h3, h4⟩ := timer_step cfg h.inv hb
    have h5 : ∀ x c, s.owner x = some c → (((T'.tm x).running = true ∨ x ∈ T'.pend) → (s.T.tm x).running = true ∨ x ∈ s.T.pend) ∧
        T'.pend.count x + (if (T'.tm x).running then 1 else 0) ≤ s.T.pend.count x + (if (s.T.tm x).running then 1 else 0) := by
      intro x c hx
      obtain ⟨t, ht⟩ := h.kind x c hx
      exact timer_live cfg h.inv hb x t ht (fun he => by rw [hst x he] at hx; simp at hx)
    refine ⟨h1, h3 h.abs, ?_, h.kind, ?_, ?_, h.cur, h.ent, ?_⟩
    · intro x t hx hk
      rcases h4 x hx with hx | hx
      · exact Nat.le_trans (h.due x t hx hk) h2
      · rw [h.abs x t hk] at hx; exact hx
    · intro x c hx
      have := (h5 x c hx).2
      have := h.once x c hx
      show T'.pend.count x + (if (T'.tm x).running then 1 else 0) ≤ 1
      omega
    · intro x c hx hl
      exact h.live x c hx ((h5 x c hx).1 hl)
    · intro c t ha hk
      rcases h.early c t ha hk with he | he
      · exact .inl he
      · exact .inr (Nat.le_trans he h2)
  -- a step that changes one coroutine only
  have setc : ∀ c v, (v.pc ≠ .idle → s.owner v.x = some c) → (v.pc = .entered → none ∈ v.res ∧ v.waiting = true) →
      (∀ t, v.pc.asleep = true → cfg v.x = .abs t → (none ∈ v.res ∧ v.waiting = true) ∨ t ≤ s.T.now) →
      (∀ x, s.owner x = some c → ((s.T.tm x).running = true ∨ x ∈ s.T.pend) →
        v.x = x ∧ v.pc.asleep = true ∧ none ∈ v.res ∧ v.waiting = true) →
      SInv cfg { s with sl := setSl s.sl c v } := by
    intro c v h1 h2 h3 h4
    refine ⟨h.inv, h.abs, h.due, h.kind, h.once, ?_, ?_, ?_, ?_⟩
    · intro x d hx hl
      simp only [setSl]
      split
      · rename_i hd; subst hd; exact h4 x hx hl
      · exact h.live x d hx hl
    · intro d
      simp only [setSl]
      split
      · rename_i hd; subst hd; exact h1
      · exact h.cur d
    · intro d
      simp only [setSl]
      split
      · exact h2
      · exact h.ent d
    · intro d t
      simp only [setSl]
      split
      · exact h3 t
      · exact h.early d t
  cases a with
  | tm b =>
    cases b with
    | start x =>
      simp only [step] at hs
      split at hs
      · rename_i ho
        simp only [Option.map_eq_some_iff] at hs
        obtain ⟨p, hp, he⟩ := hs
        simp only [Prod.mk.injEq] at he
        obtain ⟨rfl, rfl⟩ := he
        exact plain hp (fun y hy => by simp at hy; rw [← hy]; exact ho)
      · simp at hs
    | stop x =>
      simp only [step] at hs
      split at hs
      · simp only [Option.map_eq_some_iff] at hs
        obtain ⟨p, hp, he⟩ := hs
        simp only [Prod.mk.injEq] at he
        obtain ⟨rfl, rfl⟩ := he
        exact plain hp (fun y hy => by simp at hy)
      · simp at hs
    | cb x =>
      simp only [step, Option.map_eq_some_iff] at hs
      obtain ⟨p, hp, he⟩ := hs
      simp only [Prod.mk.injEq] at he
      obtain ⟨rfl, rfl⟩ := he
      have h1 := plain hp (fun y hy => by simp at hy)
      have hx : x ∈ s.T.pend ∧ p.1.now = s.T.now ∧ p.1.pend = s.T.pend.erase x ∧ p.1.tm = s.T.tm := by
        cases step_cases cfg h.inv hp with
        | quiet htm hq hpe hn he' =>
          exfalso
          simp only [Timer.step] at hp
          split at hp
          · simp at hp
          · split at hp
            · simp only [Option.some.injEq, Prod.mk.injEq] at hp
              rw [← hp] at he'
              simp at he'
            · simp at hp
        | start z ha' hr hf hs he' => simp at ha'
        | stop z ha' hr hf hs he' => simp at ha'
        | once d z r ha' hl hpc hq hx hs he' => simp at ha'
        | loop d z r ha' hl hpc hq hx hs he' => simp at ha'
        | cb z ha' hx hs he' =>
          simp only [Timer.Act.cb.injEq] at ha'
          subst ha'
          rw [hs]; exact ⟨hx, rfl, rfl, rfl⟩
      obtain ⟨hx, hnow, hpend, htm⟩ := hx
      simp only [State.wake]
      split
      · rename_i c hc
        have hc : s.owner x = some c := hc
        obtain ⟨hcx, has, _⟩ := h.live x c hc (.inr hx)
        obtain ⟨t, ht⟩ := h.kind x c hc
        have hdue := h.due x t hx ht
        refine ⟨h1.inv, h1.abs, h1.due, h1.kind, h1.once, ?_, ?_, ?_, ?_⟩
        · intro y d hy hl
          simp only [setSl]
          split
          · rename_i hd
            subst hd
            exfalso
            have hyx := (h1.live y d hy hl).1
            have hyx : (s.sl d).x = y := hyx
            have honce := h.once x d hc
            have hpos := List.count_pos_iff.2 hx
            rw [← hyx, hcx] at hl
            simp only [htm, hpend] at hl
            rcases hl with hl | hl
            · rw [if_pos hl] at honce; omega
            · have h2 := List.count_pos_iff.2 hl
              rw [List.count_erase_self] at h2
              omega
          · exact h1.live y d hy hl
        · intro d
          simp only [setSl]
          split
          · rename_i hd; subst hd; exact h1.cur d
          · exact h1.cur d
        · intro d
          simp only [setSl]
          split
          · rename_i hd
            subst hd
            intro hpc
            have hpc : (s.sl d).pc = .entered := hpc
            rw [hpc] at has
            simp [SPc.asleep] at has
          · exact h1.ent d
        · intro d t'
          simp only [setSl]
          split
          · rename_i hd
            subst hd
            intro _ hk
            have hk : cfg (s.sl d).x = .abs t' := hk
            rw [hcx, ht] at hk
            simp only [Kind.abs.injEq] at hk
            right
            show t' ≤ p.1.now
            rw [← hk, hnow]; exact hdue
          · exact h1.early d t'
      · exact h1
    | tick d =>
      simp only [step, Option.map_eq_some_iff] at hs
      obtain ⟨p, hp, he⟩ := hs
      simp only [Prod.mk.injEq] at he
      obtain ⟨rfl, rfl⟩ := he
      exact plain hp (fun y hy => by simp at hy)
    | thr d =>
      simp only [step, Option.map_eq_some_iff] at hs
      obtain ⟨p, hp, he⟩ := hs
      simp only [Prod.mk.injEq] at he
      obtain ⟨rfl, rfl⟩ := he
      exact plain hp (fun y hy => by simp at hy)
    | wake sp =>
      simp only [step, Option.map_eq_some_iff] at hs
      obtain ⟨p, hp, he⟩ := hs
      simp only [Prod.mk.injEq] at he
      obtain ⟨rfl, rfl⟩ := he
      exact plain hp (fun y hy => by simp at hy)
    | clean =>
      simp only [step, Option.map_eq_some_iff] at hs
      obtain ⟨p, hp, he⟩ := hs
      simp only [Prod.mk.injEq] at he
      obtain ⟨rfl, rfl⟩ := he
      exact plain hp (fun y hy => by simp at hy)
    | cleanNotify =>
      simp only [step, Option.map_eq_some_iff] at hs
      obtain ⟨p, hp, he⟩ := hs
      simp only [Prod.mk.injEq] at he
      obtain ⟨rfl, rfl⟩ := he
      exact plain hp (fun y hy => by simp at hy)
  | sleep c x =>
    simp only [step] at hs
    split at hs
    · simp at hs
    · rename_i t ht
      split at hs
      · rename_i hc
        obtain ⟨hpc, hox, hrun, hpend⟩ := hc
        simp only [Option.some.injEq, Prod.mk.injEq] at hs
        obtain ⟨rfl, rfl⟩ := hs
        have hne : ∀ y d, s.owner y = some d → y ≠ x := by rintro y d hy rfl; rw [hox] at hy; simp at hy
        refine ⟨h.inv, h.abs, h.due, ?_, ?_, ?_, ?_, ?_, ?_⟩
        · intro y d hy
          simp only at hy
          split at hy
          · rename_i e; rw [e]; exact ⟨t, ht⟩
          · exact h.kind y d hy
        · intro y d hy
          simp only at hy
          split at hy
          · rename_i e
            rw [e]
            simp [hrun, List.count_eq_zero.2 hpend]
          · exact h.once y d hy
        · intro y d hy hl
          simp only at hy
          split at hy
          · rename_i e
            rw [e] at hl
            rcases hl with hl | hl
            · rw [hrun] at hl; simp at hl
            · exact absurd hl hpend
          · have := h.live y d hy hl
            simp only [setSl]
            split
            · rename_i e
              rw [e, hpc] at this
              simp [SPc.asleep] at this
            · exact this
        · intro d hd
          simp only [setSl] at hd ⊢
          split
          · rename_i e; simp [e]
          · rename_i e
            simp only [e, if_false] at hd
            have := h.cur d hd
            simp only [hne _ _ this, if_false]
            exact this
        · intro d
          simp only [setSl]
          split
          · intro hd; simp at hd
          · exact h.ent d
        · intro d t'
          simp only [setSl]
          split
          · intro hd; simp [SPc.asleep] at hd
          · exact h.early d t'
      · simp at hs
  | enter c =>
    simp only [step] at hs
    split at hs
    · rename_i hpc
      simp only [Option.some.injEq, Prod.mk.injEq] at hs
      obtain ⟨rfl, rfl⟩ := hs
      refine setc c _ (fun _ => h.cur c (by rw [hpc]; simp)) (fun _ => ?_) (fun t ha => by simp [SPc.asleep] at ha) ?_
      · simp only [Sl.enter]
        split
        · rename_i hm; exact ⟨hm, trivial⟩
        · simp
      · intro x hx hl
        have := (h.live x c hx hl).2.1
        rw [hpc] at this
        simp [SPc.asleep] at this
    · simp at hs
  | start c =>
    simp only [step] at hs
    split at hs
    · rename_i hpc
      simp only [Option.map_eq_some_iff] at hs
      obtain ⟨p, hp, he⟩ := hs
      simp only [Prod.mk.injEq] at he
      obtain ⟨rfl, rfl⟩ := he
      have hcur := h.cur c (by rw [hpc]; simp)
      obtain ⟨t, ht⟩ := h.kind _ c hcur
      have hdead : ∀ x, s.owner x = some c → (s.T.tm x).running = false ∧ x ∉ s.T.pend := by
        intro x hx
        have hn : ¬ ((s.T.tm x).running = true ∨ x ∈ s.T.pend) := by
          intro hl
          have := (h.live x c hx hl).2.1
          rw [hpc] at this
          simp [SPc.asleep] at this
        exact ⟨by cases hr : (s.T.tm x).running <;> simp_all, fun hm => hn (.inr hm)⟩
      have hst : p.1 = s.T.doStart cfg (s.sl c).x := by
        have hp' := hp
        simp only [Timer.step, (hdead _ hcur).1, Bool.false_eq_true, if_false] at hp'
        split at hp'
        · simp at hp'
        · split at hp'
          · simp only [Option.some.injEq] at hp'; rw [← hp']
          · simp at hp'
      obtain ⟨h1, h2, h3, h4⟩ := timer_step cfg h.inv hp
      have hpend : p.1.pend = s.T.pend := by rw [hst]; rfl
      have htm : p.1.tm = setTm s.T.tm (s.sl c).x ⟨expiry (cfg (s.sl c).x) s.T.now (s.T.tm (s.sl c).x).expire, true⟩ := by
        rw [hst]; rfl
      refine ⟨h1, h3 h.abs, ?_, h.kind, ?_, ?_, ?_, ?_, ?_⟩
      · intro x t hx hk
        simp only [hpend] at hx
        exact Nat.le_trans (h.due x t hx hk) h2
      · intro x d hx
        simp only [hpend, htm, setTm]
        by_cases e : x = (s.sl c).x
        · rw [e, List.count_eq_zero.2 (hdead _ hcur).2]; simp
        · simp only [e, if_false]; exact h.once x d hx
      · intro x d hx hl
        simp only [hpend, htm, setTm] at hl
        by_cases e : x = (s.sl c).x
        · have hd : d = c := by
            have hx : s.owner x = some d := hx
            rw [e, hcur] at hx; simpa using hx.symm
          subst hd
          simpa [setSl, e, SPc.asleep] using h.ent d hpc
        · simp only [e, if_false] at hl
          have := h.live x d hx hl
          simp only [setSl]
          split
          · rename_i hd
            rw [hd, hpc] at this
            simp [SPc.asleep] at this
          · exact this
      · intro d
        simp only [setSl]
        split
        · rename_i hd; subst hd; exact fun _ => hcur
        · exact h.cur d
      · intro d
        simp only [setSl]
        split
        · intro hd; simp at hd
        · exact h.ent d
      · intro d t'
        simp only [setSl]
        split
        · intro _ _; exact .inl (h.ent c hpc)
        · intro ha hk
          rcases h.early d t' ha hk with he | he
          · exact .inl he
          · exact .inr (Nat.le_trans he h2)
    · simp at hs
  | park c =>
    simp only [step] at hs
    split at hs
    · rename_i hpc
      simp only [Option.some.injEq, Prod.mk.injEq] at hs
      obtain ⟨rfl, rfl⟩ := hs
      have has : (s.sl c).pc.asleep = true := by rw [hpc]; rfl
      refine setc c _ (fun _ => h.cur c (by rw [hpc]; simp)) (fun hd => by simp at hd)
        (fun t _ hk => h.early c t has hk) ?_
      intro x hx hl
      exact ⟨(h.live x c hx hl).1, rfl, (h.live x c hx hl).2.2⟩
    · simp at hs
  | leave c r =>
    simp only [step, Option.some.injEq, Prod.mk.injEq] at hs
    obtain ⟨rfl, rfl⟩ := hs
    refine setc c _ (fun hd => h.cur c hd) (fun hd => leave_none_other _ r (h.ent c hd)) ?_ ?_
    · intro t ha hk
      rcases h.early c t ha hk with he | he
      · exact .inl (leave_none_other _ r he)
      · exact .inr he
    · intro x hx hl
      obtain ⟨h1, h2, h3⟩ := h.live x c hx hl
      exact ⟨h1, h2, leave_none_other _ r h3⟩
  | resume c =>
    simp only [step] at hs
    split at hs
    · rename_i hpc
      simp only [Option.some.injEq, Prod.mk.injEq] at hs
      obtain ⟨rfl, rfl⟩ := hs
      refine setc c _ (fun hd => by simp at hd) (fun hd => by simp at hd) (fun t ha => by simp [SPc.asleep] at ha) ?_
      intro x hx hl
      have := (h.live x c hx hl).2.2.2
      rw [hpc.2] at this
      simp at this
    · simp at hs

theorem sinv_init (cfg : Nat → Kind) (t0 : Nat) : SInv cfg (State.init cfg t0) :=
  ⟨inv_init cfg t0, fun x t hk => by simp [State.init, Timer.State.init, State.exp, hk], by simp [State.init, Timer.State.init],
    by simp [State.init], by simp [State.init], by simp [State.init], by simp [State.init], by simp [State.init],
    by simp [State.init, SPc.asleep]⟩

theorem sinv_runs (cfg : Nat → Kind) (t0 : Nat) (as : List Act) (s : State) (es : List Ev)
    (h : runs (step cfg) (State.init cfg t0) as = some (s, es)) : SInv cfg s :=
  runs_inv (step := step cfg) (SInv cfg) (fun _ _ _ _ hI hs => sinv_step cfg hI hs) as _ s es (sinv_init cfg t0) h

/-! ## Not early -/

/-- The time `c` last asked to sleep until. (Concerns co_co.h:175-189, co_ctx.cpp:141-207.) -/
def asked (c : Nat) (es : List Ev) : Option Nat :=
  es.foldl (fun o e => match e with | .sleep d _ t => if d = c then some t else o | _ => o) none

theorem asked_append (c : Nat) (es : List Ev) (es' : List Ev) : asked c (es ++ es') =
    es'.foldl (fun o e => match e with | .sleep d _ t => if d = c then some t else o | _ => o) (asked c es) := by
  simp [asked]

theorem asked_map (c : Nat) (es : List Ev) (fs : List Timer.Ev) : asked c (es ++ fs.map .tm) = asked c es := by
  rw [asked_append]
  generalize asked c es = o
  induction fs with
  | nil => rfl
  | cons f fs ih => simpa using ih

/-- Proof device. (Concerns co_co.h:175-189, co_ctx.cpp:141-207.) -/
def Hist (cfg : Nat → Kind) (s : State) (tr : List Ev) : Prop :=
  ∀ c, (s.sl c).pc ≠ .idle → ∃ t, cfg (s.sl c).x = .abs t ∧ asked c tr = some t

theorem hist_step (cfg : Nat → Kind) {s s' : State} {a : Act} {es tr : List Ev} (h : Hist cfg s tr)
    (hs : step cfg s a = some (s', es)) : Hist cfg s' (tr ++ es) := by
  have plain : ∀ (s' : State) (fs : List Timer.Ev), (∀ c, (s'.sl c).x = (s.sl c).x ∧ ((s'.sl c).pc ≠ .idle → (s.sl c).pc ≠ .idle)) →
      Hist cfg s' (tr ++ fs.map .tm) := by
    intro s' fs hx c hc
    rw [asked_map, (hx c).1]
    exact h c ((hx c).2 hc)
  have plain0 : ∀ (s' : State), (∀ c, (s'.sl c).x = (s.sl c).x ∧ ((s'.sl c).pc ≠ .idle → (s.sl c).pc ≠ .idle)) →
      Hist cfg s' (tr ++ []) := fun s' hx => plain s' [] hx
  have hset : ∀ (c : Nat) (v : Sl), v.x = (s.sl c).x → (v.pc ≠ .idle → (s.sl c).pc ≠ .idle) →
      ∀ d, (setSl s.sl c v d).x = (s.sl d).x ∧ ((setSl s.sl c v d).pc ≠ .idle → (s.sl d).pc ≠ .idle) := by
    intro c v h1 h2 d
    simp only [setSl]
    split
    · rename_i e; rw [e]; exact ⟨h1, h2⟩
    · exact ⟨rfl, id⟩
  cases a with
  | tm b =>
    cases b with
    | cb x =>
      simp only [step, Option.map_eq_some_iff] at hs
      obtain ⟨p, hp, he⟩ := hs
      simp only [Prod.mk.injEq] at he
      obtain ⟨rfl, rfl⟩ := he
      refine plain _ _ ?_
      simp only [State.wake]
      split
      · exact hset _ _ rfl id
      · exact fun c => ⟨rfl, id⟩
    | _ =>
      simp only [step] at hs
      first
      | split at hs
        · simp only [Option.map_eq_some_iff] at hs
          obtain ⟨p, hp, he⟩ := hs
          simp only [Prod.mk.injEq] at he
          obtain ⟨rfl, rfl⟩ := he
          exact plain _ _ (fun c => ⟨rfl, id⟩)
        · simp at hs
      | simp only [Option.map_eq_some_iff] at hs
        obtain ⟨p, hp, he⟩ := hs
        simp only [Prod.mk.injEq] at he
        obtain ⟨rfl, rfl⟩ := he
        exact plain _ _ (fun c => ⟨rfl, id⟩)
  | sleep c x =>
    simp only [step] at hs
    split at hs
    · simp at hs
    · rename_i t ht
      split at hs
      · simp only [Option.some.injEq, Prod.mk.injEq] at hs
        obtain ⟨rfl, rfl⟩ := hs
        intro d hd
        rw [asked_append]
        simp only [setSl, List.foldl_cons, List.foldl_nil] at hd ⊢
        by_cases e : d = c
        · subst e; simp [ht]
        · simp only [e, if_false] at hd ⊢
          simp only [Ne.symm e, if_false]
          exact h d hd
      · simp at hs
  | enter c =>
    simp only [step] at hs
    split at hs
    · rename_i hpc
      simp only [Option.some.injEq, Prod.mk.injEq] at hs
      obtain ⟨rfl, rfl⟩ := hs
      exact plain0 _ (hset _ _ rfl (fun _ => by rw [hpc]; simp))
    · simp at hs
  | start c =>
    simp only [step] at hs
    split at hs
    · rename_i hpc
      simp only [Option.map_eq_some_iff] at hs
      obtain ⟨p, hp, he⟩ := hs
      simp only [Prod.mk.injEq] at he
      obtain ⟨rfl, rfl⟩ := he
      exact plain _ _ (hset _ _ rfl (fun _ => by rw [hpc]; simp))
    · simp at hs
  | park c =>
    simp only [step] at hs
    split at hs
    · rename_i hpc
      simp only [Option.some.injEq, Prod.mk.injEq] at hs
      obtain ⟨rfl, rfl⟩ := hs
      exact plain0 _ (hset _ _ rfl (fun _ => by rw [hpc]; simp))
    · simp at hs
  | leave c r =>
    simp only [step, Option.some.injEq, Prod.mk.injEq] at hs
    obtain ⟨rfl, rfl⟩ := hs
    exact plain0 _ (hset _ _ rfl id)
  | resume c =>
    simp only [step] at hs
    split at hs
    · simp only [Option.some.injEq, Prod.mk.injEq] at hs
      obtain ⟨rfl, rfl⟩ := hs
      intro d hd
      rw [asked_append]
      simp only [setSl, List.foldl_cons, List.foldl_nil] at hd ⊢
      by_cases e : d = c
      · simp [e] at hd
      · simp only [e, if_false] at hd ⊢
        exact h d hd
    · simp at hs

/-- Only a coroutine that is not waiting returns. -/
theorem ret_step (cfg : Nat → Kind) {s s' : State} {a : Act} {p q : List Ev} {c n : Nat}
    (hs : step cfg s a = some (s', p ++ .ret c n :: q)) :
    p = [] ∧ n = s.T.now ∧ (s.sl c).pc = .parked ∧ (s.sl c).waiting = false := by
  have tmno : ∀ fs : List Timer.Ev, fs.map Ev.tm ≠ p ++ .ret c n :: q := by
    intro fs he
    have : Ev.ret c n ∈ fs.map Ev.tm := by rw [he]; simp
    simp at this
  cases a with
  | tm b =>
    cases b with
    | _ =>
      simp only [step] at hs
      first
      | split at hs
        · simp only [Option.map_eq_some_iff] at hs
          obtain ⟨p, hp, he⟩ := hs
          simp only [Prod.mk.injEq] at he
          exact absurd he.2 (tmno _)
        · simp at hs
      | simp only [Option.map_eq_some_iff] at hs
        obtain ⟨p, hp, he⟩ := hs
        simp only [Prod.mk.injEq] at he
        exact absurd he.2 (tmno _)
  | sleep d x =>
    simp only [step] at hs
    split at hs
    · simp at hs
    · split at hs
      · simp only [Option.some.injEq, Prod.mk.injEq] at hs
        cases p <;> simp at hs
      · simp at hs
  | enter d =>
    simp only [step] at hs
    split at hs <;> simp at hs
  | start d =>
    simp only [step] at hs
    split at hs
    · simp only [Option.map_eq_some_iff] at hs
      obtain ⟨p, hp, he⟩ := hs
      simp only [Prod.mk.injEq] at he
      exact absurd he.2 (tmno _)
    · simp at hs
  | park d =>
    simp only [step] at hs
    split at hs <;> simp at hs
  | leave d r => simp [step] at hs
  | resume d =>
    simp only [step] at hs
    split at hs
    · rename_i hc
      simp only [Option.some.injEq, Prod.mk.injEq] at hs
      cases p with
      | nil =>
        simp at hs
        obtain ⟨_, ⟨rfl, rfl⟩, _⟩ := hs
        exact ⟨rfl, rfl, hc⟩
      | cons => simp at hs
    · simp at hs

/-- **C71, not early.** When `sleep_until` returns, the time asked for has been reached, whatever other timers and late callbacks
did. -/
theorem C71_not_early (cfg : Nat → Kind) (t0 : Nat) (as : List Act) (s : State) (pre post : List Ev) (c n : Nat)
    (h : runs (step cfg) (State.init cfg t0) as = some (s, pre ++ .ret c n :: post)) :
    ∃ t, asked c pre = some t ∧ t ≤ n := by
  obtain ⟨as1, a, as2, s1, s2, p1, p2, q1, q2, rfl, h1, h2, h3, rfl, rfl⟩ := runs_split as _ s pre _ post h
  have hI := sinv_runs cfg t0 as1 s1 p1 h1
  have hH := runs_hist (step := step cfg) (Hist cfg) (fun _ _ _ _ _ hI hs => hist_step cfg hI hs) as1 (State.init cfg t0) s1 p1 []
    (by intro c hc; simp [State.init] at hc) h1
  obtain ⟨rfl, rfl, hpc, hw⟩ := ret_step cfg h2
  obtain ⟨t, hk, ha⟩ := hH c (by rw [hpc]; simp)
  refine ⟨t, by simpa using ha, ?_⟩
  rcases hI.early c t (by rw [hpc]; rfl) hk with ⟨_, he⟩ | he
  · rw [hw] at he; simp at he
  · exact he

/-! ## Lost sleepers -/

/-- Proof device: the timer of `c`'s sleep is not in the queue and will not be. (Concerns co_co.h:175-189, co_ctx.cpp:141-207.) -/
structure Lost (cfg : Nat → Kind) (c x : Nat) (s : State) : Prop where
  inv : SInv cfg s
  cur : (s.sl c).x = x
  own : s.owner x = some c
  asleep : (s.sl c).pc.asleep = true
  q : x ∉ s.T.q
  pend : x ∉ s.T.pend
  res : none ∈ (s.sl c).res ∧ (s.sl c).waiting = true

theorem timer_lost (cfg : Nat → Kind) {T T' : Timer.State} {b : Timer.Act} {es : List Timer.Ev} (hI : Inv T) {x t : Nat}
    (hk : cfg x = .abs t) (hq : x ∉ T.q) (hp : x ∉ T.pend) (hb : b ≠ .start x) (hs : Timer.step cfg T b = some (T', es)) :
    x ∉ T'.q ∧ x ∉ T'.pend := by
  constructor
  · intro hm
    cases step_cases cfg hI hs with
    | quiet htm hq' hp hn he' => exact hq (hq' ▸ hm)
    | start z ha hr hf hs he' =>
      subst hs
      rw [(doStart_fields cfg T z).2.2.2.2.2.2] at hm
      rcases insert_mem_sub hm with rfl | hm
      · exact hb ha
      · exact hq hm
    | stop z ha hr hf hs he' => subst hs; exact hq (((doStop_queue hI.sorted hI.run).2.2 x).1 hm).1
    | once d z r ha hl hpc hq' hx hs he' =>
      subst hs
      rw [(fired_q hI hq').1] at hm
      exact hq (by rw [hq']; exact List.mem_cons_of_mem _ hm)
    | loop d z r ha hl hpc hq' hx hs he' =>
      subst hs
      rw [refired_q] at hm
      rcases insert_mem_sub hm with rfl | hm
      · exact hq (by rw [hq']; simp)
      · rw [(fired_q hI hq').1] at hm
        exact hq (by rw [hq']; exact List.mem_cons_of_mem _ hm)
    | cb z ha hx hs he' => subst hs; exact hq hm
  · intro hm
    cases step_cases cfg hI hs with
    | quiet htm hq' hp' hn he' => exact hp (hp' ▸ hm)
    | start z ha hr hf hs he' => subst hs; exact hp hm
    | stop z ha hr hf hs he' => subst hs; exact hp hm
    | once d z r ha hl hpc hq' hx hs he' =>
      subst hs
      have hm : x ∈ T.pend ++ [z] := hm
      rcases List.mem_append.1 hm with hm | hm
      · exact hp hm
      · simp at hm; exact hq (by rw [hq', hm]; simp)
    | loop d z r ha hl hpc hq' hx hs he' =>
      subst hs
      have hm : x ∈ T.pend ++ [z] := hm
      rcases List.mem_append.1 hm with hm | hm
      · exact hp hm
      · simp at hm; exact hq (by rw [hq', hm]; simp)
    | cb z ha hx hs he' => subst hs; exact hp (List.mem_of_mem_erase hm)

theorem lost_step (cfg : Nat → Kind) {c x : Nat} {s s' : State} {a : Act} {es : List Ev} (h : Lost cfg c x s)
    (hs : step cfg s a = some (s', es)) : Lost cfg c x s' := by
  have hI' := sinv_step cfg h.inv hs
  obtain ⟨t, hk⟩ := h.inv.kind x c h.own
  have tm : ∀ {T' : Timer.State} {b : Timer.Act} {es : List Timer.Ev}, Timer.step cfg s.T b = some (T', es) → b ≠ .start x →
      x ∉ T'.q ∧ x ∉ T'.pend := fun hb hne => timer_lost cfg h.inv.inv hk h.q h.pend hne hb
  have hset : ∀ (d : Nat) (v : Sl) (T : Timer.State), d ≠ c → s' = ⟨T, setSl s.sl d v, s.owner⟩ → x ∉ T.q → x ∉ T.pend →
      Lost cfg c x s' := by
    intro d v T hd he h1 h2
    have hsl : s'.sl c = s.sl c := by rw [he]; simp [setSl, Ne.symm hd]
    refine ⟨hI', by rw [hsl]; exact h.cur, by rw [he]; exact h.own, by rw [hsl]; exact h.asleep, by rw [he]; exact h1,
      by rw [he]; exact h2, by rw [hsl]; exact h.res⟩
  cases a with
  | tm b =>
    cases b with
    | cb y =>
      simp only [step, Option.map_eq_some_iff] at hs
      obtain ⟨p, hp, he⟩ := hs
      simp only [Prod.mk.injEq] at he
      obtain ⟨he1, rfl⟩ := he
      obtain ⟨h1, h2⟩ := tm hp (by simp)
      have hyx : y ≠ x := by
        rintro rfl
        simp only [Timer.step] at hp
        split at hp
        · simp at hp
        · rw [if_neg h.pend] at hp; simp at hp
      simp only [State.wake] at he1
      split at he1
      · rename_i d hd
        have hd : s.owner y = some d := hd
        by_cases hdc : d = c
        · subst hdc
          exfalso
          have hyp : y ∈ s.T.pend := by
            simp only [Timer.step] at hp
            split at hp
            · simp at hp
            · split at hp
              · assumption
              · simp at hp
          exact hyx ((h.inv.live y d hd (.inr hyp)).1.symm.trans h.cur)
        · exact hset d _ p.1 hdc he1.symm h1 h2
      · subst he1
        exact ⟨hI', h.cur, h.own, h.asleep, h1, h2, h.res⟩
    | start y =>
      simp only [step] at hs
      split at hs
      · rename_i ho
        simp only [Option.map_eq_some_iff] at hs
        obtain ⟨p, hp, he⟩ := hs
        simp only [Prod.mk.injEq] at he
        obtain ⟨rfl, rfl⟩ := he
        obtain ⟨h1, h2⟩ := tm hp (by intro he; simp at he; rw [he, h.own] at ho; simp at ho)
        exact ⟨hI', h.cur, h.own, h.asleep, h1, h2, h.res⟩
      · simp at hs
    | stop y =>
      simp only [step] at hs
      split at hs
      · simp only [Option.map_eq_some_iff] at hs
        obtain ⟨p, hp, he⟩ := hs
        simp only [Prod.mk.injEq] at he
        obtain ⟨rfl, rfl⟩ := he
        obtain ⟨h1, h2⟩ := tm hp (by simp)
        exact ⟨hI', h.cur, h.own, h.asleep, h1, h2, h.res⟩
      · simp at hs
    | _ =>
      simp only [step, Option.map_eq_some_iff] at hs
      obtain ⟨p, hp, he⟩ := hs
      simp only [Prod.mk.injEq] at he
      obtain ⟨rfl, rfl⟩ := he
      obtain ⟨h1, h2⟩ := tm hp (by simp)
      exact ⟨hI', h.cur, h.own, h.asleep, h1, h2, h.res⟩
  | sleep d y =>
    simp only [step] at hs
    split at hs
    · simp at hs
    · split at hs
      · rename_i hc
        simp only [Option.some.injEq, Prod.mk.injEq] at hs
        obtain ⟨rfl, rfl⟩ := hs
        have hd : d ≠ c := by rintro rfl; have := h.asleep; rw [hc.1] at this; simp [SPc.asleep] at this
        have hxy : x ≠ y := by rintro rfl; rw [h.own] at hc; simp at hc
        refine ⟨hI', ?_, ?_, ?_, h.q, h.pend, ?_⟩
        · simp [setSl, Ne.symm hd, h.cur]
        · simp [hxy, h.own]
        · simp [setSl, Ne.symm hd, h.asleep]
        · simpa [setSl, Ne.symm hd] using h.res
      · simp at hs
  | enter d =>
    simp only [step] at hs
    split at hs
    · rename_i hc
      simp only [Option.some.injEq, Prod.mk.injEq] at hs
      have hd : d ≠ c := by rintro rfl; have := h.asleep; rw [hc] at this; simp [SPc.asleep] at this
      exact hset d _ _ hd hs.1.symm h.q h.pend
    · simp at hs
  | start d =>
    simp only [step] at hs
    split at hs
    · rename_i hc
      simp only [Option.map_eq_some_iff] at hs
      obtain ⟨p, hp, he⟩ := hs
      simp only [Prod.mk.injEq] at he
      have hd : d ≠ c := by rintro rfl; have := h.asleep; rw [hc] at this; simp [SPc.asleep] at this
      obtain ⟨h1, h2⟩ := tm hp (by
        intro e
        simp only [Timer.Act.start.injEq] at e
        have := h.inv.cur d (by rw [hc]; simp)
        rw [e, h.own] at this
        simp at this
        exact hd this.symm)
      exact hset d _ _ hd he.1.symm h1 h2
    · simp at hs
  | park d =>
    simp only [step] at hs
    split at hs
    · simp only [Option.some.injEq, Prod.mk.injEq] at hs
      obtain ⟨rfl, rfl⟩ := hs
      by_cases hd : d = c
      · subst hd
        exact ⟨hI', by simpa [setSl] using h.cur, h.own, by simp [setSl, SPc.asleep], h.q, h.pend, by simpa [setSl] using h.res⟩
      · exact hset d _ _ hd rfl h.q h.pend
    · simp at hs
  | leave d r =>
    simp only [step, Option.some.injEq, Prod.mk.injEq] at hs
    obtain ⟨rfl, rfl⟩ := hs
    by_cases hd : d = c
    · subst hd
      exact ⟨hI', by simpa [setSl, Sl.leave] using h.cur, h.own, by simpa [setSl, Sl.leave] using h.asleep, h.q, h.pend,
        by simpa [setSl] using leave_none_other _ r h.res⟩
    · exact hset d _ _ hd rfl h.q h.pend
  | resume d =>
    simp only [step] at hs
    split at hs
    · rename_i hc
      simp only [Option.some.injEq, Prod.mk.injEq] at hs
      have hd : d ≠ c := by rintro rfl; have := h.res.2; rw [hc.2] at this; simp at this
      exact hset d _ _ hd hs.1.symm h.q h.pend
    · simp at hs

/-- **C71, negation.** A coroutine that asks to sleep until an instant for which another timer is already queued (two coroutines
sleeping until the same deadline) never wakes up. -/
theorem C71_same_deadline_never_wakes (cfg : Nat → Kind) (t0 : Nat) (as bs : List Act) (s s1 s2 : State) (es e1 e2 : List Ev)
    (h : runs (step cfg) (State.init cfg t0) as = some (s, es)) (c : Nat) (hpc : (s.sl c).pc = .entered)
    (z : Nat) (hz : z ∈ s.T.q) (hzt : cfg (s.sl c).x = .abs (s.T.exp z))
    (h1 : step cfg s (.start c) = some (s1, e1)) (h2 : runs (step cfg) s1 bs = some (s2, e2)) :
    (∀ n, Ev.ret c n ∉ e2) ∧ (s2.sl c).waiting = true := by
  have hI := sinv_runs cfg t0 as s es h
  have hI1 := sinv_step cfg hI h1
  have hcur := hI.cur c (by rw [hpc]; simp)
  have hent := hI.ent c hpc
  have hL : Lost cfg c (s.sl c).x s1 := by
    simp only [step, hpc, if_true, Option.map_eq_some_iff] at h1
    obtain ⟨p, hp, he⟩ := h1
    simp only [Prod.mk.injEq] at he
    obtain ⟨rfl, rfl⟩ := he
    have hdead : (s.T.tm (s.sl c).x).running = false ∧ (s.sl c).x ∉ s.T.pend := by
      have hn : ¬ ((s.T.tm (s.sl c).x).running = true ∨ (s.sl c).x ∈ s.T.pend) := by
        intro hl
        have := (hI.live _ c hcur hl).2.1
        rw [hpc] at this
        simp [SPc.asleep] at this
      exact ⟨by cases hr : (s.T.tm (s.sl c).x).running <;> simp_all, fun hm => hn (.inr hm)⟩
    have hst : p.1 = s.T.doStart cfg (s.sl c).x := by
      simp only [Timer.step, hdead.1, Bool.false_eq_true, if_false] at hp
      split at hp
      · simp at hp
      · split at hp
        · simp only [Option.some.injEq] at hp; rw [← hp]
        · simp at hp
    refine ⟨hI1, by simp [setSl], hcur, by simp [setSl, SPc.asleep], ?_, ?_, by simpa [setSl] using hent⟩
    · show (s.sl c).x ∉ p.1.q
      rw [hst]
      have hx : (s.sl c).x ∉ s.T.q := fun hm => by
        have := hI.inv.run _ hm
        rw [hdead.1] at this; simp at this
      intro hm
      refine (doStart_queue cfg hI.inv.sorted hI.inv.run hx).2.2.1 hm z hz ?_
      have := hI1.abs _ _ hzt
      have this : p.1.exp (s.sl c).x = s.T.exp z := this
      rw [← this, hst]
    · show (s.sl c).x ∉ p.1.pend
      rw [hst]; exact hdead.2
  have hall : ∀ (bs : List Act) (s1 s2 : State) (e2 : List Ev), Lost cfg c (s.sl c).x s1 →
      runs (step cfg) s1 bs = some (s2, e2) → (∀ n, Ev.ret c n ∉ e2) ∧ Lost cfg c (s.sl c).x s2 := by
    intro bs
    induction bs with
    | nil =>
      intro s1 s2 e2 hL h
      simp only [runs, Option.some.injEq, Prod.mk.injEq] at h
      obtain ⟨rfl, rfl⟩ := h
      exact ⟨by simp, hL⟩
    | cons b bs ih =>
      intro s1 s2 e2 hL h
      obtain ⟨u, f1, f2, k1, k2, rfl⟩ := runs_cons h
      obtain ⟨i1, i2⟩ := ih u s2 f2 (lost_step cfg hL k1) k2
      refine ⟨?_, i2⟩
      intro n hm
      rcases List.mem_append.1 hm with hm | hm
      · obtain ⟨p, q, rfl⟩ := List.append_of_mem hm
        obtain ⟨_, _, _, hw⟩ := ret_step cfg k1
        rw [hL.res.2] at hw
        simp at hw
      · exact i1 n hm
  obtain ⟨i1, i2⟩ := hall bs s1 s2 e2 hL h2
  exact ⟨i1, i2.res.2⟩

/-- **C71, witness.** Coroutines 1 and 2 sleep until time 10; the timer thread wakes 1 and then waits for new timers, while 2 is
still marked as waiting. -/
theorem C71_witness : (runs (step twoAbs) (State.init twoAbs 0)
      [.sleep 1 0, .enter 1, .start 1, .park 1, .sleep 2 1, .enter 2, .start 2, .park 2, .tm (.tick 10),
        .tm (.thr 0), .tm (.thr 0), .tm (.thr 0), .tm (.cb 0), .resume 1, .tm (.thr 0), .tm (.thr 0)]).map
      (fun p => (p.1.T.pc, p.1.T.notified, p.1.T.q, (p.1.sl 2).waiting, p.2)) =
    some (.wait, false, [], true,
      [.sleep 1 0 10, .tm (.start 0 10), .sleep 2 1 10, .tm (.start 1 10), .tm (.fire 0 10), .tm (.stop 0), .tm (.cb 0 10),
        .ret 1 10]) := rfl

/-! ## Waking up -/

/-- The events of the timer machine. (Concerns co_co.h:175-189, co_ctx.cpp:141-207.) -/
def Ev.timer : Ev → Option Timer.Ev
  | .tm e => some e
  | _ => none

/-- The steps of the timer thread. (Concerns co_co.h:175-189, co_ctx.cpp:141-207.) -/
def Act.thread : Act → Bool
  | .tm a => a.thread
  | _ => false

/-- The sleeping coroutines' executions are executions of the timer machine. -/
theorem proj_step (cfg : Nat → Kind) {s s' : State} {a : Act} {es : List Ev} (hs : step cfg s a = some (s', es)) :
    ∃ bs, runs (Timer.step cfg) s.T bs = some (s'.T, es.filterMap Ev.timer) ∧
      (bs.length ≤ 1 ∧ bs.countP Timer.Act.thread = (if a.thread then 1 else 0)) ∧
      ∀ b ∈ bs, a = .tm b ∨ ∃ c, a = .start c ∧ (s.sl c).pc = .entered ∧ b = .start (s.sl c).x := by
  have hmap : ∀ fs : List Timer.Ev, (fs.map Ev.tm).filterMap Ev.timer = fs := by
    intro fs
    induction fs with
    | nil => rfl
    | cons f fs ih => simp [Ev.timer, ih]
  have one : ∀ (b : Timer.Act) (T' : Timer.State) (fs : List Timer.Ev), Timer.step cfg s.T b = some (T', fs) →
      runs (Timer.step cfg) s.T [b] = some (T', (fs.map Ev.tm).filterMap Ev.timer) := by
    intro b T' fs hb
    rw [hmap]
    simp [runs, hb]
  cases a with
  | tm b =>
    refine ⟨[b], ?_, ⟨by simp, by cases hb : b.thread <;> simp [Act.thread, hb]⟩, fun b' hb' => by simp at hb'; exact .inl (by rw [hb'])⟩
    cases b with
    | cb x =>
      simp only [step, Option.map_eq_some_iff] at hs
      obtain ⟨p, hp, he⟩ := hs
      simp only [Prod.mk.injEq] at he
      obtain ⟨rfl, rfl⟩ := he
      have : (({ s with T := p.1 } : State).wake x).T = p.1 := by
        simp only [State.wake]; split <;> rfl
      rw [this]
      exact one _ _ _ hp
    | _ =>
      simp only [step] at hs
      first
      | split at hs
        · simp only [Option.map_eq_some_iff] at hs
          obtain ⟨p, hp, he⟩ := hs
          simp only [Prod.mk.injEq] at he
          obtain ⟨rfl, rfl⟩ := he
          exact one _ _ _ hp
        · simp at hs
      | simp only [Option.map_eq_some_iff] at hs
        obtain ⟨p, hp, he⟩ := hs
        simp only [Prod.mk.injEq] at he
        obtain ⟨rfl, rfl⟩ := he
        exact one _ _ _ hp
  | sleep c x =>
    simp only [step] at hs
    split at hs
    · simp at hs
    · split at hs
      · simp only [Option.some.injEq, Prod.mk.injEq] at hs
        obtain ⟨rfl, rfl⟩ := hs
        exact ⟨[], rfl, ⟨by simp, rfl⟩, by simp⟩
      · simp at hs
  | enter c =>
    simp only [step] at hs
    split at hs
    · simp only [Option.some.injEq, Prod.mk.injEq] at hs
      obtain ⟨rfl, rfl⟩ := hs
      exact ⟨[], rfl, ⟨by simp, rfl⟩, by simp⟩
    · simp at hs
  | start c =>
    simp only [step] at hs
    split at hs
    · rename_i hpc
      simp only [Option.map_eq_some_iff] at hs
      obtain ⟨p, hp, he⟩ := hs
      simp only [Prod.mk.injEq] at he
      obtain ⟨rfl, rfl⟩ := he
      exact ⟨[.start (s.sl c).x], one _ _ _ hp, ⟨by simp, by simp [Act.thread, Timer.Act.thread]⟩,
        fun b hb => by simp at hb; exact .inr ⟨c, rfl, hpc, hb⟩⟩
    · simp at hs
  | park c =>
    simp only [step] at hs
    split at hs
    · simp only [Option.some.injEq, Prod.mk.injEq] at hs
      obtain ⟨rfl, rfl⟩ := hs
      exact ⟨[], rfl, ⟨by simp, rfl⟩, by simp⟩
    · simp at hs
  | leave c r =>
    simp only [step, Option.some.injEq, Prod.mk.injEq] at hs
    obtain ⟨rfl, rfl⟩ := hs
    exact ⟨[], rfl, ⟨by simp, rfl⟩, by simp⟩
  | resume c =>
    simp only [step] at hs
    split at hs
    · simp only [Option.some.injEq, Prod.mk.injEq] at hs
      obtain ⟨rfl, rfl⟩ := hs
      exact ⟨[], rfl, ⟨by simp, rfl⟩, by simp⟩
    · simp at hs

/-- What the rest of the program may do while a coroutine sleeps until `e`: anything but start a timer or call `sleep_until` for an
earlier instant, or destroy the manager. (Concerns co_co.h:175-189, co_ctx.cpp:141-207.) -/
def Act.allowed (cfg : Nat → Kind) (e : Nat) : Act → Prop
  | .tm (.start y) => ∀ t, cfg y = .abs t → e ≤ t
  | .tm .clean => False
  | .sleep _ y => ∀ t, cfg y = .abs t → e ≤ t
  | _ => True

/-- Coroutines that are just calling `sleep_until` ask for instants no earlier than `e`. (Concerns co_co.h:175-189, co_ctx.cpp:141-207.) -/
def Later (cfg : Nat → Kind) (e : Nat) (s : State) : Prop :=
  ∀ c t, (s.sl c).pc = .called ∨ (s.sl c).pc = .entered → cfg (s.sl c).x = .abs t → e ≤ t

/-- `wait_data__` of the sleepers: a step changes pcs and resources only as described. -/
theorem sl_step (cfg : Nat → Kind) {s s' : State} {a : Act} {es : List Ev} (hs : step cfg s a = some (s', es)) :
    (∀ x c, s.owner x = some c → s'.owner x = some c) ∧
    ∀ d, s'.sl d = s.sl d ∨
      (∃ x, a = .sleep d x ∧ s'.sl d = { s.sl d with pc := .called, x := x } ∧ (s.sl d).pc = .idle) ∨
      (a = .enter d ∧ s'.sl d = { (s.sl d).enter none with pc := .entered } ∧ (s.sl d).pc = .called) ∨
      (a = .start d ∧ s'.sl d = { s.sl d with pc := .started } ∧ (s.sl d).pc = .entered) ∨
      (a = .park d ∧ s'.sl d = { s.sl d with pc := .parked } ∧ (s.sl d).pc = .started) ∨
      (∃ x, a = .tm (.cb x) ∧ s.owner x = some d ∧ s'.sl d = (s.sl d).leave none) ∨
      (∃ r, a = .leave d r ∧ s'.sl d = (s.sl d).leave (some r)) ∨
      (a = .resume d ∧ s'.sl d = { s.sl d with pc := .idle } ∧ (∃ n, Ev.ret d n ∈ es)) := by
  cases a with
  | tm b =>
    cases b with
    | cb x =>
      simp only [step, Option.map_eq_some_iff] at hs
      obtain ⟨p, hp, he⟩ := hs
      simp only [Prod.mk.injEq] at he
      obtain ⟨rfl, rfl⟩ := he
      simp only [State.wake]
      split
      · rename_i c hc
        refine ⟨fun x c h => h, fun d => ?_⟩
        by_cases hd : d = c
        · subst hd; right; right; right; right; right; left; exact ⟨x, rfl, hc, by simp [setSl]⟩
        · left; simp [setSl, hd]
      · exact ⟨fun x c h => h, fun d => .inl rfl⟩
    | _ =>
      simp only [step] at hs
      first
      | split at hs
        · simp only [Option.map_eq_some_iff] at hs
          obtain ⟨p, hp, he⟩ := hs
          simp only [Prod.mk.injEq] at he
          obtain ⟨rfl, rfl⟩ := he
          exact ⟨fun x c h => h, fun d => .inl rfl⟩
        · simp at hs
      | simp only [Option.map_eq_some_iff] at hs
        obtain ⟨p, hp, he⟩ := hs
        simp only [Prod.mk.injEq] at he
        obtain ⟨rfl, rfl⟩ := he
        exact ⟨fun x c h => h, fun d => .inl rfl⟩
  | sleep c x =>
    simp only [step] at hs
    split at hs
    · simp at hs
    · split at hs
      · rename_i hc
        simp only [Option.some.injEq, Prod.mk.injEq] at hs
        obtain ⟨rfl, rfl⟩ := hs
        refine ⟨fun y e h => ?_, fun d => ?_⟩
        · by_cases hy : y = x
          · subst hy; rw [hc.2.1] at h; simp at h
          · simp [hy, h]
        · by_cases hd : d = c
          · subst hd; right; left; exact ⟨x, rfl, by simp [setSl], hc.1⟩
          · left; simp [setSl, hd]
      · simp at hs
  | enter c =>
    simp only [step] at hs
    split at hs
    · rename_i hc
      simp only [Option.some.injEq, Prod.mk.injEq] at hs
      obtain ⟨rfl, rfl⟩ := hs
      refine ⟨fun x c h => h, fun d => ?_⟩
      by_cases hd : d = c
      · subst hd; right; right; left; exact ⟨rfl, by simp [setSl], hc⟩
      · left; simp [setSl, hd]
    · simp at hs
  | start c =>
    simp only [step] at hs
    split at hs
    · rename_i hc
      simp only [Option.map_eq_some_iff] at hs
      obtain ⟨p, hp, he⟩ := hs
      simp only [Prod.mk.injEq] at he
      obtain ⟨rfl, rfl⟩ := he
      refine ⟨fun x c h => h, fun d => ?_⟩
      by_cases hd : d = c
      · subst hd; right; right; right; left; exact ⟨rfl, by simp [setSl], hc⟩
      · left; simp [setSl, hd]
    · simp at hs
  | park c =>
    simp only [step] at hs
    split at hs
    · rename_i hc
      simp only [Option.some.injEq, Prod.mk.injEq] at hs
      obtain ⟨rfl, rfl⟩ := hs
      refine ⟨fun x c h => h, fun d => ?_⟩
      by_cases hd : d = c
      · subst hd; right; right; right; right; left; exact ⟨rfl, by simp [setSl], hc⟩
      · left; simp [setSl, hd]
    · simp at hs
  | leave c r =>
    simp only [step, Option.some.injEq, Prod.mk.injEq] at hs
    obtain ⟨rfl, rfl⟩ := hs
    refine ⟨fun x c h => h, fun d => ?_⟩
    by_cases hd : d = c
    · subst hd; right; right; right; right; right; right; left; exact ⟨r, rfl, by simp [setSl]⟩
    · left; simp [setSl, hd]
  | resume c =>
    simp only [step] at hs
    split at hs
    · simp only [Option.some.injEq, Prod.mk.injEq] at hs
      obtain ⟨rfl, rfl⟩ := hs
      refine ⟨fun x c h => h, fun d => ?_⟩
      by_cases hd : d = c
      · subst hd; right; right; right; right; right; right; right; exact ⟨rfl, by simp [setSl], s.T.now, by simp⟩
      · left; simp [setSl, hd]
    · simp at hs

theorem later_step (cfg : Nat → Kind) {e : Nat} {s s' : State} {a : Act} {es : List Ev} (h : Later cfg e s)
    (ha : a.allowed cfg e) (hs : step cfg s a = some (s', es)) : Later cfg e s' := by
  intro d t hd hk
  rcases (sl_step cfg hs).2 d with h1 | ⟨x, rfl, h1, h2⟩ | ⟨rfl, h1, h2⟩ | ⟨rfl, h1, h2⟩ | ⟨rfl, h1, h2⟩ | ⟨x, rfl, h2, h1⟩ |
    ⟨r, rfl, h1⟩ | ⟨rfl, h1, h2⟩ <;> rw [h1] at hd hk
  · exact h d t hd hk
  · exact ha t hk
  · exact h d t (.inl h2) (by simpa [Sl.enter] using hk)
  · exact h d t (.inr h2) hk
  · simp at hd
  · exact h d t (by simpa [Sl.leave] using hd) (by simpa [Sl.leave] using hk)
  · exact h d t (by simpa [Sl.leave] using hd) (by simpa [Sl.leave] using hk)
  · simp at hd

/-- Proof device: only the coroutine itself is ever in the wait set of a sleeper, and the flag tells whether it is. -/
theorem res_runs (cfg : Nat → Kind) (t0 : Nat) (as : List Act) (s : State) (es : List Ev)
    (h : runs (step cfg) (State.init cfg t0) as = some (s, es)) (c : Nat) :
    (∀ r ∈ (s.sl c).res, r = none) ∧ ((s.sl c).waiting = true → none ∈ (s.sl c).res) := by
  refine runs_inv (step := step cfg) (fun s : State => ∀ c, (∀ r ∈ (s.sl c).res, r = none) ∧
    ((s.sl c).waiting = true → none ∈ (s.sl c).res)) ?_ as _ s es (by simp [State.init]) h c
  intro s a s' es h hs d
  have hl : ∀ r, (∀ q ∈ ((s.sl d).leave r).res, q = none) ∧ (((s.sl d).leave r).waiting = true → none ∈ ((s.sl d).leave r).res) := by
    intro r
    constructor
    · intro q hq
      exact (h d).1 q (List.mem_filter.1 hq).1
    · intro hw
      simp only [Sl.leave] at hw ⊢
      split at hw
      · simp at hw
      · rename_i hne
        obtain ⟨q, hq⟩ := List.exists_mem_of_ne_nil _ hne
        have := (h d).1 q (List.mem_filter.1 hq).1
        exact this ▸ hq
  rcases (sl_step cfg hs).2 d with h1 | ⟨x, rfl, h1, h2⟩ | ⟨rfl, h1, h2⟩ | ⟨rfl, h1, h2⟩ | ⟨rfl, h1, h2⟩ | ⟨x, rfl, h2, h1⟩ |
    ⟨r, rfl, h1⟩ | ⟨rfl, h1, h2⟩ <;> rw [h1]
  · exact h d
  · exact h d
  · simp only [Sl.enter]
    have := h d
    constructor
    · intro r hr
      split at hr
      · exact this.1 r hr
      · simp at hr
        rcases hr with hr | hr
        · exact hr
        · exact this.1 r hr
    · intro _
      split
      · assumption
      · simp
  · exact h d
  · exact h d
  · exact hl _
  · exact hl _
  · exact h d

/-- The callback of a sleep's timer removes the only resource. -/
theorem leave_awake (v : Sl) (h : ∀ r ∈ v.res, r = none) : (v.leave none).waiting = false := by
  have : v.res.filter (· ≠ none) = [] := by
    rw [List.filter_eq_nil_iff]
    intro r hr
    simp [h r hr]
  simp only [Sl.leave, this, if_true]

theorem timer_pend (cfg : Nat → Kind) {T T' : Timer.State} {b : Timer.Act} {es : List Timer.Ev} (hI : Inv T) {x : Nat}
    (hp : x ∈ T.pend) (hb : b ≠ .cb x) (hs : Timer.step cfg T b = some (T', es)) : x ∈ T'.pend := by
  cases step_cases cfg hI hs with
  | quiet htm hq' hp' hn he' => exact hp' ▸ hp
  | start z ha hr hf hs he' => subst hs; exact hp
  | stop z ha hr hf hs he' => subst hs; exact hp
  | once d z r ha hl hpc hq' hx hs he' => subst hs; exact List.mem_append_left _ hp
  | loop d z r ha hl hpc hq' hx hs he' => subst hs; exact List.mem_append_left _ hp
  | cb z ha hx hs he' =>
    subst hs
    have hzx : x ≠ z := by rintro rfl; exact hb ha
    exact (List.mem_erase_of_ne hzx).2 hp

theorem timer_fire (cfg : Nat → Kind) {T T' : Timer.State} {b : Timer.Act} {es : List Timer.Ev} (hI : Inv T) {x t : Nat}
    (hs : Timer.step cfg T b = some (T', es)) (hf : .fire x t ∈ es) : x ∈ T'.pend := by
  cases step_cases cfg hI hs with
  | quiet htm hq' hp' hn he' => rcases he' with he | he | ⟨he, _⟩ | ⟨z, he⟩ | ⟨z, he⟩ <;> rw [he] at hf <;> simp at hf
  | start z ha hr hf' hs he' => rw [he'] at hf; simp at hf
  | stop z ha hr hf' hs he' => rw [he'] at hf; simp at hf
  | once d z r ha hl hpc hq' hx hs he' =>
    rw [he'] at hf; simp at hf
    subst hs
    rw [hf.1]
    exact List.mem_append_right _ (by simp)
  | loop d z r ha hl hpc hq' hx hs he' =>
    rw [he'] at hf; simp at hf
    subst hs
    rw [hf.1]
    exact List.mem_append_right _ (by simp)
  | cb z ha hx hs he' => rw [he'] at hf; simp at hf

/-- Proof device: the timer of `c`'s sleep has fired. (Concerns co_co.h:175-189, co_ctx.cpp:141-207.) -/
def Woken (c x : Nat) (s : State) : Prop :=
  s.owner x = some c ∧ (s.sl c).pc.asleep = true ∧ (s.sl c).x = x ∧ (x ∈ s.T.pend ∨ (s.sl c).waiting = false)

theorem woken_step (cfg : Nat → Kind) {c x : Nat} {s s' : State} {a : Act} {es : List Ev} (hI : SInv cfg s)
    (hres : ∀ r ∈ (s.sl c).res, r = none) (h : Woken c x s) (hs : step cfg s a = some (s', es)) :
    Woken c x s' ∨ ∃ n, Ev.ret c n ∈ es := by
  obtain ⟨ho, has, hx, hw⟩ := h
  obtain ⟨f1, f2⟩ := sl_step cfg hs
  obtain ⟨bs, p1, _, p2⟩ := proj_step cfg hs
  have hpend : a ≠ .tm (.cb x) → x ∈ s.T.pend → x ∈ s'.T.pend := by
    intro hne hp
    have : ∀ (bs : List Timer.Act) (T T' : Timer.State) fs, (∀ b ∈ bs, b ≠ .cb x) → Inv T → x ∈ T.pend →
        runs (Timer.step cfg) T bs = some (T', fs) → x ∈ T'.pend := by
      intro bs
      induction bs with
      | nil =>
        intro T T' fs _ _ hp hr
        simp only [runs, Option.some.injEq, Prod.mk.injEq] at hr
        exact hr.1 ▸ hp
      | cons b bs ih =>
        intro T T' fs hb hI hp hr
        obtain ⟨u, g1, g2, k1, k2, rfl⟩ := runs_cons hr
        exact ih u T' g2 (fun b hb' => hb b (List.mem_cons_of_mem _ hb')) (inv_step cfg hI k1)
          (timer_pend cfg hI hp (hb b (by simp)) k1) k2
    refine this bs _ _ _ ?_ hI.inv hp p1
    intro b hb he
    rcases p2 b hb with h1 | ⟨_, h1, _, h2⟩
    · exact hne (by rw [h1, he])
    · rw [he] at h2; simp at h2
  have keep : s'.sl c = s.sl c → a ≠ .tm (.cb x) → Woken c x s' := by
    intro he hne
    refine ⟨f1 x c ho, by rw [he]; exact has, by rw [he]; exact hx, ?_⟩
    rcases hw with hw | hw
    · exact .inl (hpend hne hw)
    · exact .inr (by rw [he]; exact hw)
  rcases f2 c with h1 | ⟨y, rfl, h1, h2⟩ | ⟨rfl, h1, h2⟩ | ⟨rfl, h1, h2⟩ | ⟨rfl, h1, h2⟩ | ⟨y, rfl, h2, h1⟩ |
    ⟨r, rfl, h1⟩ | ⟨rfl, h1, h2⟩
  · by_cases hne : a = .tm (.cb x)
    · left
      refine ⟨f1 x c ho, by rw [h1]; exact has, by rw [h1]; exact hx, ?_⟩
      right
      subst hne
      simp only [step, Option.map_eq_some_iff] at hs
      obtain ⟨p, hp, he⟩ := hs
      simp only [Prod.mk.injEq] at he
      rw [← he.1]
      simp only [State.wake, ho, setSl, if_true]
      exact leave_awake _ hres
    · exact .inl (keep h1 hne)
  · rw [h2] at has; simp [SPc.asleep] at has
  · rw [h2] at has; simp [SPc.asleep] at has
  · rw [h2] at has; simp [SPc.asleep] at has
  · left
    refine ⟨f1 x c ho, by rw [h1]; rfl, by rw [h1]; exact hx, ?_⟩
    rcases hw with hw | hw
    · exact .inl (hpend (by simp) hw)
    · exact .inr (by rw [h1]; exact hw)
  · left
    refine ⟨f1 x c ho, by rw [h1]; exact has, by rw [h1]; exact hx, .inr ?_⟩
    rw [h1]
    exact leave_awake _ hres
  · left
    refine ⟨f1 x c ho, by rw [h1]; exact has, by rw [h1]; exact hx, ?_⟩
    rcases hw with hw | hw
    · exact .inl (hpend (by simp) hw)
    · right
      rw [h1]
      simp only [Sl.leave]
      split
      · rfl
      · exact hw
  · exact .inr h2

theorem woken_runs (cfg : Nat → Kind) (t0 : Nat) {c x : Nat} (bs : List Act) : ∀ (as : List Act) (s s' : State) (es es' : List Ev),
    runs (step cfg) (State.init cfg t0) as = some (s, es) → Woken c x s → runs (step cfg) s bs = some (s', es') →
    Woken c x s' ∨ ∃ n, Ev.ret c n ∈ es' := by
  induction bs with
  | nil =>
    intro as s s' es es' _ hw hr
    simp only [runs, Option.some.injEq, Prod.mk.injEq] at hr
    exact .inl (hr.1 ▸ hw)
  | cons b bs ih =>
    intro as s s' es es' h hw hr
    obtain ⟨u, g1, g2, k1, k2, rfl⟩ := runs_cons hr
    rcases woken_step cfg (sinv_runs cfg t0 as s es h) (res_runs cfg t0 as s es h c).1 hw k1 with hw | ⟨n, hn⟩
    · have h2 : runs (step cfg) (State.init cfg t0) (as ++ [b]) = some (u, es ++ (g1 ++ [])) :=
        runs_append h (by simp [runs, k1])
      rcases ih (as ++ [b]) u s' _ g2 h2 hw k2 with hw | ⟨n, hn⟩
      · exact .inl hw
      · exact .inr ⟨n, List.mem_append_right _ hn⟩
    · exact .inr ⟨n, List.mem_append_left _ hn⟩

theorem proj_runs (cfg : Nat → Kind) (e : Nat) (x c : Nat) (as : List Act) : ∀ (s s' : State) (es : List Ev),
    runs (step cfg) s as = some (s', es) →
    ∃ bs, runs (Timer.step cfg) s.T bs = some (s'.T, es.filterMap Ev.timer) ∧
      bs.countP Timer.Act.thread = as.countP Act.thread ∧
      ((∀ a ∈ as, a.allowed cfg e) → Later cfg e s → s.owner x = some c → ∀ b ∈ bs, b.allowed cfg x e) := by
  induction as with
  | nil =>
    intro s s' es h
    simp only [runs, Option.some.injEq, Prod.mk.injEq] at h
    obtain ⟨rfl, rfl⟩ := h
    exact ⟨[], rfl, rfl, by simp⟩
  | cons a as ih =>
    intro s s' es h
    obtain ⟨u, g1, g2, k1, k2, rfl⟩ := runs_cons h
    obtain ⟨b1, p1, ⟨_, p2⟩, p3⟩ := proj_step cfg k1
    obtain ⟨b2, q1, q2, q3⟩ := ih u s' g2 k2
    refine ⟨b1 ++ b2, ?_, ?_, ?_⟩
    · rw [List.filterMap_append]; exact runs_append p1 q1
    · rw [List.countP_append, p2, q2, List.countP_cons]; omega
    · intro hal hL ho b hb
      have ha := hal a (by simp)
      rcases List.mem_append.1 hb with hb | hb
      · rcases p3 b hb with rfl | ⟨d, rfl, hpc, rfl⟩
        · cases b with
          | start y => exact ha
          | stop y =>
            simp only [step] at k1
            split at k1
            · rename_i hy
              rintro rfl
              rw [ho] at hy; simp at hy
            · simp at k1
          | clean => exact ha.elim
          | _ => trivial
        · intro t hk
          exact hL d t (.inr hpc) hk
      · exact q3 (fun a ha => hal a (List.mem_cons_of_mem _ ha)) (later_step cfg hL ha k1) ((sl_step cfg k1).1 x c ho) b hb

theorem timer_alive (cfg : Nat → Kind) {T T' : Timer.State} {b : Timer.Act} {es : List Timer.Ev} (hI : Inv T) {x t : Nat}
    (hk : cfg x = .abs t) (h : (T.tm x).running = true ∨ x ∈ T.pend) (hb : b ≠ .stop x) (hb' : b ≠ .cb x)
    (hs : Timer.step cfg T b = some (T', es)) : (T'.tm x).running = true ∨ x ∈ T'.pend := by
  cases step_cases cfg hI hs with
  | quiet htm hq' hp' hn he' => rw [htm, hp']; exact h
  | start z ha hr hf hs he' =>
    subst hs
    by_cases hz : x = z
    · subst hz; left; rw [(doStart_fields cfg T x).2.2.2.2.2.1]; simp [setTm]
    · rw [(doStart_fields cfg T z).2.2.2.2.2.1]
      simp only [setTm, hz, if_false]
      exact h
  | stop z ha hr hf hs he' =>
    subst hs
    have hz : x ≠ z := by rintro rfl; exact hb ha
    simpa [State.doStop, State.notify, setTm, hz] using h
  | once d z r ha hl hpc hq' hx hs he' =>
    subst hs
    by_cases hz : x = z
    · subst hz; right; exact List.mem_append_right _ (by simp)
    · rcases h with h | h
      · left; simpa [State.fired, State.doStop, State.notify, setTm, hz] using h
      · right; exact List.mem_append_left _ h
  | loop d z r ha hl hpc hq' hx hs he' =>
    subst hs
    have hz : x ≠ z := by rintro rfl; rw [hk] at hl; simp [Kind.loops] at hl
    rcases h with h | h
    · left; simpa [State.refired, State.fired, State.doStart, State.doStop, State.notify, setTm, hz] using h
    · right; exact List.mem_append_left _ h
  | cb z ha hx hs he' =>
    subst hs
    have hz : x ≠ z := by rintro rfl; exact hb' ha
    rcases h with h | h
    · exact .inl h
    · exact .inr ((List.mem_erase_of_ne hz).2 h)

/-- A sleeper still has its timer armed, or the timer has fired and its callback is still to run. -/
theorem alive_runs (cfg : Nat → Kind) (t0 : Nat) (as : List Act) (s : State) (es : List Ev)
    (h : runs (step cfg) (State.init cfg t0) as = some (s, es)) (c : Nat) (ha : (s.sl c).pc.asleep = true)
    (hr : none ∈ (s.sl c).res) : (s.T.tm (s.sl c).x).running = true ∨ (s.sl c).x ∈ s.T.pend := by
  refine (runs_inv (step := step cfg) (fun s : State => SInv cfg s ∧ ∀ c, (s.sl c).pc.asleep = true → none ∈ (s.sl c).res →
    (s.T.tm (s.sl c).x).running = true ∨ (s.sl c).x ∈ s.T.pend) ?_ as _ s es
    ⟨sinv_init cfg t0, by simp [State.init]⟩ h).2 c ha hr
  rintro s a s' es ⟨hI, h⟩ hs
  refine ⟨sinv_step cfg hI hs, ?_⟩
  intro c ha hr
  obtain ⟨f1, f2⟩ := sl_step cfg hs
  obtain ⟨bs, p1, ⟨p0, _⟩, p2⟩ := proj_step cfg hs
  have keep : (s.sl c).pc.asleep = true → none ∈ (s.sl c).res → a ≠ .tm (.cb (s.sl c).x) →
      (s'.T.tm (s.sl c).x).running = true ∨ (s.sl c).x ∈ s'.T.pend := by
    intro ha hr hne
    have ho := hI.cur c (by intro he; rw [he] at ha; simp [SPc.asleep] at ha)
    obtain ⟨t, hk⟩ := hI.kind _ c ho
    have hl := h c ha hr
    match bs with
    | [] =>
      simp only [runs, Option.some.injEq, Prod.mk.injEq] at p1
      rw [← p1.1]; exact hl
    | [b] =>
      obtain ⟨u, g1, g2, k1, k2, _⟩ := runs_cons p1
      simp only [runs, Option.some.injEq, Prod.mk.injEq] at k2
      obtain ⟨rfl, _⟩ := k2
      refine timer_alive cfg hI.inv hk hl ?_ ?_ k1
      · rintro rfl
        rcases p2 (.stop (s.sl c).x) (by simp) with rfl | ⟨_, _, _, h2⟩
        · simp only [step] at hs
          rw [if_neg (by rw [ho]; simp)] at hs
          simp at hs
        · simp at h2
      · rintro rfl
        rcases p2 (.cb (s.sl c).x) (by simp) with rfl | ⟨_, _, _, h2⟩
        · exact hne rfl
        · simp at h2
  rcases f2 c with h1 | ⟨y, rfl, h1, h2⟩ | ⟨rfl, h1, h2⟩ | ⟨rfl, h1, h2⟩ | ⟨rfl, h1, h2⟩ | ⟨y, rfl, h2, h1⟩ |
    ⟨r, rfl, h1⟩ | ⟨rfl, h1, h2⟩ <;> rw [h1] at ha hr ⊢
  · refine keep ha hr ?_
    rintro rfl
    have ho := hI.cur c (by intro he; rw [he] at ha; simp [SPc.asleep] at ha)
    simp only [step, Option.map_eq_some_iff] at hs
    obtain ⟨p, hp, he⟩ := hs
    simp only [Prod.mk.injEq] at he
    have : none ∈ (s'.sl c).res := by rw [h1]; exact hr
    rw [← he.1] at this
    simp [State.wake, ho, setSl, Sl.leave] at this
  · simp [SPc.asleep] at ha
  · simp [SPc.asleep] at ha
  · left
    simp only [step, h2, if_true, Option.map_eq_some_iff] at hs
    obtain ⟨p, hp, he⟩ := hs
    simp only [Prod.mk.injEq] at he
    rw [← he.1]
    show (p.1.tm (s.sl c).x).running = true
    simp only [Timer.step] at hp
    split at hp
    · simp at hp
    · split at hp
      · rename_i hrun
        simp only [Option.some.injEq] at hp
        rw [← hp]; exact hrun
      · split at hp
        · simp only [Option.some.injEq] at hp
          rw [← hp]
          show ((s.T.doStart cfg (s.sl c).x).tm (s.sl c).x).running = true
          rw [(doStart_fields cfg s.T _).2.2.2.2.2.1]; simp [setTm]
        · simp at hp
  · exact keep (by rw [h2]; rfl) hr (by simp)
  · simp [Sl.leave] at hr
  · simp only [Sl.leave, List.mem_filter] at ha hr ⊢
    exact keep ha hr.1 (by simp)
  · simp [SPc.asleep] at ha

/-- **C71, the part that holds: woken by its timer.** If no two armed timers ever have the same expiry time, a coroutine that sleeps
until an instant that has come is woken within `2 k + 3` steps of the timer thread (`k` being the number of armed timers before its
own), however these steps interleave with the coroutine going to sleep and with other coroutines and timers: it has returned, or it
is no longer marked as waiting, or its timer has fired and running the callback removes the mark. -/
theorem C71_woken_partial (cfg : Nat → Kind) (t0 : Nat) (as bs : List Act) (s s' : State) (es es' : List Ev)
    (h : runs (step cfg) (State.init cfg t0) as = some (s, es)) (h' : runs (step cfg) s bs = some (s', es'))
    (c e : Nat) (hpc : (s.sl c).pc = .started ∨ (s.sl c).pc = .parked) (hk : cfg (s.sl c).x = .abs e) (hdue : e ≤ s.T.now)
    (hd : Distinct ((es ++ es').filterMap Ev.timer)) (hc : s.T.clean = false) (hcr : s.T.pc ≠ .crashed) (hcr' : s'.T.pc ≠ .crashed)
    (hL : Later cfg e s) (hal : ∀ a ∈ bs, a.allowed cfg e)
    (hlong : 2 * s.T.before (s.sl c).x + 3 < bs.countP Act.thread) :
    (∃ n, Ev.ret c n ∈ es') ∨ (s'.sl c).waiting = false ∨
    ∃ s'' e'', step cfg s' (.tm (.cb (s.sl c).x)) = some (s'', e'') ∧ (s''.sl c).waiting = false := by
  have hI := sinv_runs cfg t0 as s es h
  have ho := hI.cur c (by rcases hpc with h | h <;> rw [h] <;> simp)
  obtain ⟨ts, u1, _, _⟩ := proj_runs cfg e (s.sl c).x c as _ s es h
  obtain ⟨us, v1, v2, v3⟩ := proj_runs cfg e (s.sl c).x c bs _ s' es' h'
  have fin : ∀ (bs' cs : List Act) (s2 : State) (f2 f3 : List Ev), (∀ e, e ∈ f3 → e ∈ es') → Woken c (s.sl c).x s2 →
      runs (step cfg) (State.init cfg t0) bs' = some (s2, f2) → runs (step cfg) s2 cs = some (s', f3) →
      (∃ n, Ev.ret c n ∈ es') ∨ (s'.sl c).waiting = false ∨
      ∃ s'' e'', step cfg s' (.tm (.cb (s.sl c).x)) = some (s'', e'') ∧ (s''.sl c).waiting = false := by
    intro bs' cs s2 f2 f3 hsub hw2 r2 h3
    rcases woken_runs cfg t0 cs _ s2 s' _ f3 r2 hw2 h3 with hw | ⟨n, hn⟩
    · obtain ⟨g1, g2, g3, g4⟩ := hw
      rcases g4 with g4 | g4
      · right; right
        have r3 := runs_append r2 h3
        have hres := (res_runs cfg t0 _ s' _ r3 c).1
        simp only [step, Timer.step, if_neg hcr', if_pos g4, Option.map_some, Option.some.injEq, Prod.mk.injEq, State.wake, g1]
        refine ⟨_, _, ⟨rfl, rfl⟩, ?_⟩
        simp only [setSl, if_true]
        exact leave_awake _ hres
      · exact .inr (.inl g4)
    · exact .inl ⟨n, hsub _ hn⟩
  have has : (s.sl c).pc.asleep = true := by rcases hpc with h | h <;> rw [h] <;> rfl
  by_cases hp : (s.sl c).x ∈ s.T.pend
  · exact fin as bs s es es' (fun _ h => h) ⟨ho, has, rfl, .inl hp⟩ h h'
  by_cases hwt : (s.sl c).waiting = false
  · exact fin as bs s es es' (fun _ h => h) ⟨ho, has, rfl, .inr hwt⟩ h h'
  have hrun : (s.T.tm (s.sl c).x).running = true := by
    rcases alive_runs cfg t0 as s es h c has ((res_runs cfg t0 as s es h c).2 (by simpa using hwt)) with h | h
    · exact h
    · exact absurd h hp
  have harm : armed (es.filterMap Ev.timer) (s.sl c).x = some e := by
    rw [← armed_runs cfg t0 ts _ _ u1]
    have := hI.abs _ _ hk
    simp only [State.exp] at this
    simp [State.armed, hrun, this]
  have hfire := C66_fires_partial cfg t0 ts us s.T s'.T _ _ u1 (s.sl c).x e harm hdue hc hcr v1
    (by rw [← List.filterMap_append]; exact hd) (v3 hal hL ho) (by rw [v2]; exact hlong)
  obtain ⟨t, ht⟩ := hfire
  rw [List.mem_filterMap] at ht
  obtain ⟨ev, hev, he⟩ := ht
  cases ev with
  | tm f =>
    simp only [Ev.timer, Option.some.injEq] at he
    subst he
    obtain ⟨p, q, rfl⟩ := List.append_of_mem hev
    obtain ⟨b1, b, b2, s1, s2, p1, p2, q1, q2, rfl, h1, h2, h3, rfl, rfl⟩ := runs_split bs _ s' p _ q h'
    have r1 := runs_append h h1
    have hI1 := sinv_runs cfg t0 _ s1 _ r1
    have r2 : runs (step cfg) (State.init cfg t0) ((as ++ b1) ++ [b]) = some (s2, (es ++ p1) ++ ((p2 ++ .tm (.fire (s.sl c).x t) :: q1) ++ [])) :=
      runs_append r1 (by simp [runs, h2])
    have hI2 := sinv_runs cfg t0 _ s2 _ r2
    have own : ∀ (bs : List Act) (s s' : State) es, ∀ x c, s.owner x = some c →
        runs (step cfg) s bs = some (s', es) → s'.owner x = some c := by
      intro bs
      induction bs with
      | nil =>
        intro s s' es x c ho hr
        simp only [runs, Option.some.injEq, Prod.mk.injEq] at hr
        exact hr.1 ▸ ho
      | cons b bs ih =>
        intro s s' es x c ho hr
        obtain ⟨u, g1, g2, k1, k2, rfl⟩ := runs_cons hr
        exact ih u s' g2 x c ((sl_step cfg k1).1 x c ho) k2
    have ho1 := own b1 s s1 p1 _ _ ho h1
    have ho2 := (sl_step cfg h2).1 _ _ ho1
    have hp2 : (s.sl c).x ∈ s2.T.pend := by
      obtain ⟨ws, w1, ⟨w2, _⟩, _⟩ := proj_step cfg h2
      have key : ∀ (ws : List Timer.Act) (T T' : Timer.State) (fs : List Timer.Ev), ws.length ≤ 1 → Inv T →
          runs (Timer.step cfg) T ws = some (T', fs) → .fire (s.sl c).x t ∈ fs → (s.sl c).x ∈ T'.pend := by
        intro ws T T' fs hlen hI hr hf
        match ws with
        | [] =>
          simp only [runs, Option.some.injEq, Prod.mk.injEq] at hr
          rw [← hr.2] at hf; simp at hf
        | [w] =>
          obtain ⟨u, g1, g2, k1, k2, rfl⟩ := runs_cons hr
          simp only [runs, Option.some.injEq, Prod.mk.injEq] at k2
          obtain ⟨rfl, rfl⟩ := k2
          exact timer_fire cfg hI k1 (by simpa using hf)
      exact key ws s1.T s2.T _ w2 hI1.inv w1 (by simp [Ev.timer])
    have hl := hI2.live _ c ho2 (.inr hp2)
    have hw2 : Woken c (s.sl c).x s2 := ⟨ho2, hl.2.1, hl.1, .inl hp2⟩
    exact fin _ b2 s2 _ q2 (fun e he => by simp [he]) hw2 r2 h3
  | sleep _ _ _ => simp [Ev.timer] at he
  | ret _ _ => simp [Ev.timer] at he

/-- Two coroutines sleep until 10 and 20; both return, in order, and not early (`C71_not_early`, `C71_woken_partial`). -/
example : (runs (step fun x => .abs (10 * (x + 1))) (State.init (fun x => .abs (10 * (x + 1))) 0)
      [.sleep 1 1, .enter 1, .start 1, .sleep 2 0, .enter 2, .start 2, .park 2, .tm (.tick 25), .tm (.thr 0), .tm (.thr 0),
        .tm (.thr 0), .tm (.cb 0), .tm (.thr 0), .tm (.thr 0), .tm (.cb 1), .park 1, .resume 1, .resume 2]).map
      (fun p => (p.1.T.q, p.1.T.pend, p.2.filter fun e => match e with | .ret _ _ => true | _ => false)) =
    some ([], [], [.ret 1 25, .ret 2 25]) := rfl

end Verif.Timer.Sleep
