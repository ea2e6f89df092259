import Verif.Sched.WaitInv

/-! # C49, C50, C51: waiting for a coroutine -/

namespace Verif.Wait

/-- Proof device: what the state remembers of the trace. (Concerns co_env.cpp:99-187, co_ctx.cpp:65-207.) -/
structure Hist (s : State) (tr : List Ev) : Prop where
  call : ∀ w c a t, Ev.call w c a t ∈ tr ↔ (s.op w).map (fun o => (o.who, o.tgt, o.timed)) = some (c, a, t)
  fin : ∀ a, Ev.finished a ∈ tr ↔ (s.fn a).fin = true
  pubd : ∀ a, Ev.pubDone a ∈ tr ↔ s.fn a = .done
  time : ∀ w, Ev.timeout w ∈ tr ↔ (s.tm w).past = true
  run : ∀ a, s.fn a = .running → (∀ r, Ev.fnOver a r ∉ tr) ∧ s.ret a = none ∧ s.exc a = none
  res : ∀ a, s.fn a ≠ .running → ∃ r, Ev.fnOver a r ∈ tr
  one : ∀ a r r', Ev.fnOver a r ∈ tr → Ev.fnOver a r' ∈ tr → r = r'
  val : ∀ a v, Ev.fnOver a (.val v) ∈ tr → s.ret a = some v ∧ s.exc a = none
  exc : ∀ a e, Ev.fnOver a (.exc e) ∈ tr →
    s.ret a = none ∧ (s.exc a = some e ∨ (s.exc a = none ∧ ∃ w c t, Ev.throw w e ∈ tr ∧ Ev.call w c a t ∈ tr))
  peek : ∀ w o e, s.op w = some o → o.pc = .peeked e → Ev.fnOver o.tgt (.exc e) ∈ tr
  thr : ∀ w e, Ev.throw w e ∈ tr → ∃ o, s.op w = some o ∧ o.pc = .over ∧ s.exc o.tgt = none ∧ s.fn o.tgt ≠ .running

theorem hist_init : Hist State.init [] := by
  constructor <;> simp [State.init, Fn.fin, Tm.past, Tm.holds]

attribute [local grind =] Fn.fin Tm.holds Tm.past State.leave State.setPc

theorem Hist.exc_over {s : State} {tr : List Ev} (h : Hist s tr) {a e : Nat} (he : s.exc a = some e) : Ev.fnOver a (.exc e) ∈ tr := by
  by_cases hr : s.fn a = .running
  · rw [(h.run a hr).2.2] at he; cases he
  · obtain ⟨r, hr⟩ := h.res a hr
    cases r with
    | val v => rw [(h.val a v hr).2] at he; cases he
    | exc e' =>
      rcases (h.exc a e' hr).2 with e | ⟨e, _⟩
      · rw [he] at e; cases e; exact hr
      · rw [he] at e; cases e

theorem Hist.op_call {s : State} {tr : List Ev} (h : Hist s tr) {w : Nat} {o : Op} (he : s.op w = some o) :
    Ev.call w o.who o.tgt o.timed ∈ tr := by
  rw [h.call, he]; rfl

theorem hist_call {cfg : Cfg} {s s' : State} {w c a : Nat} {timed : Bool} {es tr : List Ev} (hi : Inv cfg s) (h : Hist s tr)
    (hs : step cfg s (.call w c a timed) = some (s', es)) : Hist s' (tr ++ es) := by
  have F := hi.fresh (w := w)
  obtain ⟨h1, h2, h3, h4, h5, h6, h7, h8, h9, h10, h11⟩ := h
  simp only [step] at hs
  repeat' split at hs
  all_goals first | (simp only [reduceCtorEq] at hs; done) | skip
  all_goals
    simp only [Option.some.injEq, Prod.mk.injEq] at hs
    obtain ⟨rfl, rfl⟩ := hs
    constructor <;> (try dsimp only [State.setPc, State.leave]) <;> grind

theorem hist_release {cfg : Cfg} {s s' : State} {a : Nat} {es tr : List Ev} (hi : Inv cfg s) (h : Hist s tr)
    (hs : step cfg s (.release a) = some (s', es)) : Hist s' (tr ++ es) := by
  obtain ⟨h1, h2, h3, h4, h5, h6, h7, h8, h9, h10, h11⟩ := h
  simp only [step] at hs
  repeat' split at hs
  all_goals first | (simp only [reduceCtorEq] at hs; done) | skip
  all_goals
    simp only [Option.some.injEq, Prod.mk.injEq] at hs
    obtain ⟨rfl, rfl⟩ := hs
    constructor <;> (try dsimp only [State.setPc, State.leave]) <;> grind

theorem hist_preempt {cfg : Cfg} {s s' : State} {a : Nat} {es tr : List Ev} (hi : Inv cfg s) (h : Hist s tr)
    (hs : step cfg s (.preempt a) = some (s', es)) : Hist s' (tr ++ es) := by
  obtain ⟨h1, h2, h3, h4, h5, h6, h7, h8, h9, h10, h11⟩ := h
  simp only [step] at hs
  repeat' split at hs
  all_goals first | (simp only [reduceCtorEq] at hs; done) | skip
  all_goals
    simp only [Option.some.injEq, Prod.mk.injEq] at hs
    obtain ⟨rfl, rfl⟩ := hs
    constructor <;> (try dsimp only [State.setPc, State.leave]) <;> grind

theorem hist_resume {cfg : Cfg} {s s' : State} {a : Nat} {es tr : List Ev} (hi : Inv cfg s) (h : Hist s tr)
    (hs : step cfg s (.resume a) = some (s', es)) : Hist s' (tr ++ es) := by
  obtain ⟨h1, h2, h3, h4, h5, h6, h7, h8, h9, h10, h11⟩ := h
  simp only [step] at hs
  repeat' split at hs
  all_goals first | (simp only [reduceCtorEq] at hs; done) | skip
  all_goals
    simp only [Option.some.injEq, Prod.mk.injEq] at hs
    obtain ⟨rfl, rfl⟩ := hs
    constructor <;> (try dsimp only [State.setPc, State.leave]) <;> grind

theorem hist_check {cfg : Cfg} {s s' : State} {a : Nat} {es tr : List Ev} (hi : Inv cfg s) (h : Hist s tr)
    (hs : step cfg s (.check a) = some (s', es)) : Hist s' (tr ++ es) := by
  obtain ⟨h1, h2, h3, h4, h5, h6, h7, h8, h9, h10, h11⟩ := h
  simp only [step] at hs
  repeat' split at hs
  all_goals first | (simp only [reduceCtorEq] at hs; done) | skip
  all_goals
    simp only [Option.some.injEq, Prod.mk.injEq] at hs
    obtain ⟨rfl, rfl⟩ := hs
    constructor <;> (try dsimp only [State.setPc, State.leave]) <;> grind

theorem hist_peek {cfg : Cfg} {s s' : State} {a : Nat} {es tr : List Ev} (hi : Inv cfg s) (h : Hist s tr)
    (hs : step cfg s (.peek a) = some (s', es)) : Hist s' (tr ++ es) := by
  have X := @h.exc_over
  have C := @h.op_call
  obtain ⟨h1, h2, h3, h4, h5, h6, h7, h8, h9, h10, h11⟩ := h
  simp only [step] at hs
  repeat' split at hs
  all_goals first | (simp only [reduceCtorEq] at hs; done) | skip
  all_goals
    simp only [Option.some.injEq, Prod.mk.injEq] at hs
    obtain ⟨rfl, rfl⟩ := hs
    constructor <;> (try dsimp only [State.setPc, State.leave]) <;> grind

theorem hist_clear {cfg : Cfg} {s s' : State} {a : Nat} {es tr : List Ev} (hi : Inv cfg s) (h : Hist s tr)
    (hs : step cfg s (.clear a) = some (s', es)) : Hist s' (tr ++ es) := by
  have X := @h.exc_over
  have C := @h.op_call
  obtain ⟨h1, h2, h3, h4, h5, h6, h7, h8, h9, h10, h11⟩ := h
  simp only [step] at hs
  repeat' split at hs
  all_goals first | (simp only [reduceCtorEq] at hs; done) | skip
  all_goals
    simp only [Option.some.injEq, Prod.mk.injEq] at hs
    obtain ⟨rfl, rfl⟩ := hs
    rename_i o _ _ e _ _
    have hf := hi.late' a _ ‹_› (.inr ⟨_, ‹_›⟩)
    constructor <;> (try dsimp only [State.setPc, State.leave])
    case exc =>
      intro a' e' m
      have m : Ev.fnOver a' (.exc e') ∈ tr := by grind
      obtain ⟨k1, k2⟩ := h9 a' e' m
      refine ⟨k1, ?_⟩
      by_cases hta : a' = o.tgt
      · subst hta
        right
        have : e' = e := by grind
        subst this
        exact ⟨by simp, a, o.who, o.timed, by simp, by simp; exact C ‹_›⟩
      · rw [set_other _ _ hta]
        rcases k2 with k | ⟨k, w, c, t, k2, k3⟩
        · exact .inl k
        · exact .inr ⟨k, w, c, t, by simp [k2], by simp [k3]⟩
    all_goals grind

theorem hist_body {cfg : Cfg} {s s' : State} {a : Nat} {r : Res} {es tr : List Ev} (hi : Inv cfg s) (h : Hist s tr)
    (hs : step cfg s (.body a r) = some (s', es)) : Hist s' (tr ++ es) := by
  have X := @h.exc_over
  have C := @h.op_call
  obtain ⟨h1, h2, h3, h4, h5, h6, h7, h8, h9, h10, h11⟩ := h
  simp only [step] at hs
  repeat' split at hs
  all_goals first | (simp only [reduceCtorEq] at hs; done) | skip
  all_goals
    simp only [Option.some.injEq, Prod.mk.injEq] at hs
    obtain ⟨rfl, rfl⟩ := hs
    constructor <;> (try dsimp only [State.setPc, State.leave]) <;> grind

theorem hist_mark {cfg : Cfg} {s s' : State} {a : Nat} {es tr : List Ev} (hi : Inv cfg s) (h : Hist s tr)
    (hs : step cfg s (.mark a) = some (s', es)) : Hist s' (tr ++ es) := by
  obtain ⟨h1, h2, h3, h4, h5, h6, h7, h8, h9, h10, h11⟩ := h
  simp only [step] at hs
  repeat' split at hs
  all_goals first | (simp only [reduceCtorEq] at hs; done) | skip
  all_goals
    simp only [Option.some.injEq, Prod.mk.injEq] at hs
    obtain ⟨rfl, rfl⟩ := hs
    constructor <;> (try dsimp only [State.setPc, State.leave]) <;> grind

theorem hist_pub {cfg : Cfg} {s s' : State} {a : Nat} {es tr : List Ev} (hi : Inv cfg s) (h : Hist s tr)
    (hs : step cfg s (.pub a) = some (s', es)) : Hist s' (tr ++ es) := by
  obtain ⟨h1, h2, h3, h4, h5, h6, h7, h8, h9, h10, h11⟩ := h
  simp only [step] at hs
  repeat' split at hs
  all_goals first | (simp only [reduceCtorEq] at hs; done) | skip
  all_goals
    simp only [Option.some.injEq, Prod.mk.injEq] at hs
    obtain ⟨rfl, rfl⟩ := hs
    constructor <;> (try dsimp only [State.setPc, State.leave]) <;> grind

theorem hist_deliver {cfg : Cfg} {s s' : State} {a : Nat} {es tr : List Ev} (hi : Inv cfg s) (h : Hist s tr)
    (hs : step cfg s (.deliver a) = some (s', es)) : Hist s' (tr ++ es) := by
  obtain ⟨h1, h2, h3, h4, h5, h6, h7, h8, h9, h10, h11⟩ := h
  simp only [step] at hs
  repeat' split at hs
  all_goals first | (simp only [reduceCtorEq] at hs; done) | skip
  all_goals
    simp only [Option.some.injEq, Prod.mk.injEq] at hs
    obtain ⟨rfl, rfl⟩ := hs
    constructor <;> (try dsimp only [State.setPc, State.leave]) <;> grind

theorem hist_leave {cfg : Cfg} {s s' : State} {a : Nat} {es tr : List Ev} (hi : Inv cfg s) (h : Hist s tr)
    (hs : step cfg s (.leave a) = some (s', es)) : Hist s' (tr ++ es) := by
  obtain ⟨h1, h2, h3, h4, h5, h6, h7, h8, h9, h10, h11⟩ := h
  simp only [step] at hs
  repeat' split at hs
  all_goals first | (simp only [reduceCtorEq] at hs; done) | skip
  all_goals
    simp only [Option.some.injEq, Prod.mk.injEq] at hs
    obtain ⟨rfl, rfl⟩ := hs
    constructor <;> (try dsimp only [State.setPc, State.leave]) <;> grind

theorem hist_pubEnd {cfg : Cfg} {s s' : State} {a : Nat} {es tr : List Ev} (hi : Inv cfg s) (h : Hist s tr)
    (hs : step cfg s (.pubEnd a) = some (s', es)) : Hist s' (tr ++ es) := by
  obtain ⟨h1, h2, h3, h4, h5, h6, h7, h8, h9, h10, h11⟩ := h
  simp only [step] at hs
  repeat' split at hs
  all_goals first | (simp only [reduceCtorEq] at hs; done) | skip
  all_goals
    simp only [Option.some.injEq, Prod.mk.injEq] at hs
    obtain ⟨rfl, rfl⟩ := hs
    constructor <;> (try dsimp only [State.setPc, State.leave]) <;> grind

theorem hist_fire {cfg : Cfg} {s s' : State} {a : Nat} {es tr : List Ev} (hi : Inv cfg s) (h : Hist s tr)
    (hs : step cfg s (.fire a) = some (s', es)) : Hist s' (tr ++ es) := by
  obtain ⟨h1, h2, h3, h4, h5, h6, h7, h8, h9, h10, h11⟩ := h
  simp only [step] at hs
  repeat' split at hs
  all_goals first | (simp only [reduceCtorEq] at hs; done) | skip
  all_goals
    simp only [Option.some.injEq, Prod.mk.injEq] at hs
    obtain ⟨rfl, rfl⟩ := hs
    constructor <;> (try dsimp only [State.setPc, State.leave]) <;> grind

theorem hist_run {cfg : Cfg} {s s' : State} {a : Nat} {es tr : List Ev} (hi : Inv cfg s) (h : Hist s tr)
    (hs : step cfg s (.run a) = some (s', es)) : Hist s' (tr ++ es) := by
  obtain ⟨h1, h2, h3, h4, h5, h6, h7, h8, h9, h10, h11⟩ := h
  simp only [step] at hs
  repeat' split at hs
  all_goals first | (simp only [reduceCtorEq] at hs; done) | skip
  all_goals
    simp only [Option.some.injEq, Prod.mk.injEq] at hs
    obtain ⟨rfl, rfl⟩ := hs
    constructor <;> (try dsimp only [State.setPc, State.leave]) <;> grind

theorem hist_unsub {cfg : Cfg} {s s' : State} {a : Nat} {es tr : List Ev} (hi : Inv cfg s) (h : Hist s tr)
    (hs : step cfg s (.unsub a) = some (s', es)) : Hist s' (tr ++ es) := by
  obtain ⟨h1, h2, h3, h4, h5, h6, h7, h8, h9, h10, h11⟩ := h
  simp only [step] at hs
  repeat' split at hs
  all_goals first | (simp only [reduceCtorEq] at hs; done) | skip
  all_goals
    simp only [Option.some.injEq, Prod.mk.injEq] at hs
    obtain ⟨rfl, rfl⟩ := hs
    constructor <;> (try dsimp only [State.setPc, State.leave]) <;> grind

theorem hist_tleave {cfg : Cfg} {s s' : State} {a : Nat} {es tr : List Ev} (hi : Inv cfg s) (h : Hist s tr)
    (hs : step cfg s (.tleave a) = some (s', es)) : Hist s' (tr ++ es) := by
  obtain ⟨h1, h2, h3, h4, h5, h6, h7, h8, h9, h10, h11⟩ := h
  simp only [step] at hs
  repeat' split at hs
  all_goals first | (simp only [reduceCtorEq] at hs; done) | skip
  all_goals
    simp only [Option.some.injEq, Prod.mk.injEq] at hs
    obtain ⟨rfl, rfl⟩ := hs
    constructor <;> (try dsimp only [State.setPc, State.leave]) <;> grind

theorem hist_trelease {cfg : Cfg} {s s' : State} {a : Nat} {es tr : List Ev} (hi : Inv cfg s) (h : Hist s tr)
    (hs : step cfg s (.trelease a) = some (s', es)) : Hist s' (tr ++ es) := by
  obtain ⟨h1, h2, h3, h4, h5, h6, h7, h8, h9, h10, h11⟩ := h
  simp only [step] at hs
  repeat' split at hs
  all_goals first | (simp only [reduceCtorEq] at hs; done) | skip
  all_goals
    simp only [Option.some.injEq, Prod.mk.injEq] at hs
    obtain ⟨rfl, rfl⟩ := hs
    constructor <;> (try dsimp only [State.setPc, State.leave]) <;> grind

theorem hist_step {cfg : Cfg} {s s' : State} {a : Act} {es tr : List Ev} (hi : Inv cfg s) (h : Hist s tr)
    (hs : step cfg s a = some (s', es)) : Hist s' (tr ++ es) := by
  cases a with
  | call => exact hist_call hi h hs
  | release => exact hist_release hi h hs
  | preempt => exact hist_preempt hi h hs
  | resume => exact hist_resume hi h hs
  | check => exact hist_check hi h hs
  | peek => exact hist_peek hi h hs
  | clear => exact hist_clear hi h hs
  | body => exact hist_body hi h hs
  | mark => exact hist_mark hi h hs
  | pub => exact hist_pub hi h hs
  | deliver => exact hist_deliver hi h hs
  | leave => exact hist_leave hi h hs
  | pubEnd => exact hist_pubEnd hi h hs
  | fire => exact hist_fire hi h hs
  | run => exact hist_run hi h hs
  | unsub => exact hist_unsub hi h hs
  | tleave => exact hist_tleave hi h hs
  | trelease => exact hist_trelease hi h hs

theorem both_runs {cfg : Cfg} {as : List Act} {s : State} {es : List Ev} (h : runs (step cfg) State.init as = some (s, es)) :
    Inv cfg s ∧ Hist s es := by
  have := runs_hist (step := step cfg) (fun s tr => Inv cfg s ∧ Hist s tr)
    (fun s a s' es tr hI hs => ⟨inv_step hI.1 hs, hist_step hI.1 hI.2 hs⟩) as State.init s es []
    ⟨inv_init cfg, hist_init⟩ h
  simpa using this

/-! ## C49 -/

/-- C49, first part: `wait` returns only after the awaited coroutine finished; then it returns the value its function returned, and if
that function threw, then the exception was thrown by an earlier wait on it. -/
theorem C49_returns_result {cfg : Cfg} {as : List Act} {s : State} {pre post : List Ev} {w : Nat} {v : Option Nat}
    (h : runs (step cfg) State.init as = some (s, pre ++ .ret w v :: post)) :
    ∃ c a t r, Ev.call w c a t ∈ pre ∧ Ev.finished a ∈ pre ∧ Ev.fnOver a r ∈ pre ∧
      (∀ x, r = .val x → v = some x) ∧
      (∀ e, r = .exc e → v = none ∧ ∃ w' c' t', w' ≠ w ∧ Ev.throw w' e ∈ pre ∧ Ev.call w' c' a t' ∈ pre) := by
  obtain ⟨as1, act, as2, s1, s2, p1, p2, q1, q2, rfl, h1, h2, h3, rfl, rfl⟩ := runs_split _ _ _ _ _ _ h
  obtain ⟨hi, hh⟩ := both_runs h1
  have key : ∃ o, s1.op w = some o ∧ o.pc = .last ∧ s1.exc o.tgt = none ∧ v = s1.ret o.tgt := by
    cases act <;> simp only [step] at h2 <;> repeat' split at h2
    all_goals first | (simp only [reduceCtorEq] at h2; done) | skip
    all_goals
      simp only [Option.some.injEq, Prod.mk.injEq] at h2
      obtain ⟨-, h2⟩ := h2
      have hm : Ev.ret w v ∈ p2 ++ Ev.ret w v :: q1 := by simp
      rw [← h2] at hm
      simp at hm
    obtain ⟨rfl, rfl⟩ := hm
    exact ⟨_, ‹_›, ‹_›, ‹_›, rfl⟩
  obtain ⟨o, k1, k2, k3, rfl⟩ := key
  have hf := hi.late' w o k1 (.inl k2)
  have hr : s1.fn o.tgt ≠ .running := by intro e; simp [e, Fn.fin] at hf
  obtain ⟨r, hr⟩ := hh.res _ hr
  refine ⟨o.who, o.tgt, o.timed, r, by simp [hh.op_call k1], by simp [(hh.fin o.tgt).2 hf], by simp [hr], ?_, ?_⟩
  · rintro x rfl
    exact (hh.val _ _ hr).1
  · rintro e rfl
    obtain ⟨k4, k5⟩ := hh.exc _ _ hr
    refine ⟨k4, ?_⟩
    rcases k5 with k5 | ⟨_, w', c', t', k5, k6⟩
    · rw [k3] at k5; cases k5
    · refine ⟨w', c', t', ?_, by simp [k5], by simp [k6]⟩
      rintro rfl
      obtain ⟨o', k7, k8, _⟩ := hh.thr _ _ k5
      rw [k1] at k7; cases k7
      rw [k2] at k8; cases k8

/-- C49, second part: a wait throws only what the function of the awaited coroutine threw, after that coroutine finished. -/
theorem C49_rethrows {cfg : Cfg} {as : List Act} {s : State} {pre post : List Ev} {w e : Nat}
    (h : runs (step cfg) State.init as = some (s, pre ++ .throw w e :: post)) :
    ∃ c a t, Ev.call w c a t ∈ pre ∧ Ev.finished a ∈ pre ∧ Ev.fnOver a (.exc e) ∈ pre := by
  obtain ⟨as1, act, as2, s1, s2, p1, p2, q1, q2, rfl, h1, h2, h3, rfl, rfl⟩ := runs_split _ _ _ _ _ _ h
  obtain ⟨hi, hh⟩ := both_runs h1
  have key : ∃ o, s1.op w = some o ∧ o.pc = .peeked e := by
    cases act <;> simp only [step] at h2 <;> repeat' split at h2
    all_goals first | (simp only [reduceCtorEq] at h2; done) | skip
    all_goals
      simp only [Option.some.injEq, Prod.mk.injEq] at h2
      obtain ⟨-, h2⟩ := h2
      have hm : Ev.throw w e ∈ p2 ++ Ev.throw w e :: q1 := by simp
      rw [← h2] at hm
      simp at hm
    all_goals
      obtain ⟨rfl, rfl⟩ := hm
      exact ⟨_, ‹_›, ‹_›⟩
  obtain ⟨o, k1, k2⟩ := key
  have hf := hi.late' w o k1 (.inr ⟨_, k2⟩)
  exact ⟨o.who, o.tgt, o.timed, by simp [hh.op_call k1], by simp [(hh.fin o.tgt).2 hf], by simp [hh.peek _ _ _ k1 k2]⟩

/-- C49, third part: the exception is thrown by one wait only, unless two waits were in `check_and_rethrow_exception` at the same time. -/
theorem C49_rethrown_once_partial {cfg : Cfg} {as : List Act} {s : State} {pre post : List Ev} {w w' c c' a e e' : Nat} {t t' : Bool}
    (h : runs (step cfg) State.init as = some (s, pre ++ .throw w e :: post))
    (hw : Ev.call w c a t ∈ pre) (hw' : Ev.call w' c' a t' ∈ pre) (h' : Ev.throw w' e' ∈ pre) : Ev.race a ∈ pre := by
  obtain ⟨as1, act, as2, s1, s2, p1, p2, q1, q2, rfl, h1, h2, h3, rfl, rfl⟩ := runs_split _ _ _ _ _ _ h
  obtain ⟨hi, hh⟩ := both_runs h1
  cases act <;> simp only [step] at h2 <;> repeat' split at h2
  all_goals first | (simp only [reduceCtorEq] at h2; done) | skip
  all_goals
    simp only [Option.some.injEq, Prod.mk.injEq] at h2
    obtain ⟨-, h2⟩ := h2
    have hm : Ev.throw w e ∈ p2 ++ Ev.throw w e :: q1 := by simp
    rw [← h2] at hm
    simp at hm
  all_goals
    obtain ⟨rfl, rfl⟩ := hm
    rename_i o _ hx ho hpc
    have hp2 : ∀ y ∈ p2, ∃ b, y = .race b := by
      intro y hy
      rcases p2 with _ | ⟨z, _ | ⟨z', p2⟩⟩ <;> simp_all <;> exact ⟨_, h2.1.symm⟩
    have c1 : Ev.call w c a t ∈ p1 := by
      rcases List.mem_append.1 hw with h | h
      · exact h
      · obtain ⟨b, hb⟩ := hp2 _ h; cases hb
    have c2 : Ev.call w' c' a t' ∈ p1 := by
      rcases List.mem_append.1 hw' with h | h
      · exact h
      · obtain ⟨b, hb⟩ := hp2 _ h; cases hb
    have c3 : Ev.throw w' e' ∈ p1 := by
      rcases List.mem_append.1 h' with h | h
      · exact h
      · obtain ⟨b, hb⟩ := hp2 _ h; cases hb
    rw [hh.call, ho] at c1
    simp at c1
    obtain ⟨rfl, rfl, rfl⟩ := c1
    obtain ⟨o', k1, k2, k3, -⟩ := hh.thr _ _ c3
    rw [hh.call, k1] at c2
    simp at c2
    obtain ⟨rfl, k4, rfl⟩ := c2
    rw [k4] at k3
    first
    | exact absurd k3 hx
    | (cases p2 with
       | nil => simp at h2
       | cons z p2 => simp at h2; simp [← h2.1])

/-- Concrete case of C49: a wait that begins before and one that begins after the end of the function; both get its value. -/
example : (runs (step ⟨id, id, true⟩) State.init
    [.call 10 1 0 false, .release 10, .body 0 (.val 42), .mark 0, .pub 0, .call 11 2 0 true, .deliver 0, .pubEnd 0, .resume 10, .check 10,
     .peek 10, .check 11, .peek 11]).map (·.2) =
    some [.call 10 1 0 false, .fnOver 0 (.val 42), .finished 0, .call 11 2 0 true, .pubDone 0, .resume 10, .ret 10 (some 42), .ret 11 (some 42)] := by
  decide

/-- C49 fails for the exception: two waits on different threads can both rethrow it (they read and reset `exception__` with no lock). -/
theorem C49_rethrown_twice :
    (runs (step ⟨id, id, true⟩) State.init
      [.call 10 1 0 false, .release 10, .call 11 2 0 false, .release 11, .body 0 (.exc 7), .mark 0, .pub 0, .deliver 0, .deliver 0,
       .pubEnd 0, .resume 10, .resume 11, .check 10, .check 11, .peek 10, .peek 11, .clear 10, .clear 11]).map (·.2) =
    some [.call 10 1 0 false, .call 11 2 0 false, .fnOver 0 (.exc 7), .finished 0, .pubDone 0, .resume 10, .resume 11, .throw 10 7,
      .race 0, .throw 11 7] := by
  decide

/-! ## C50, C51: safety -/

/-- Proof device. (Concerns co_env.cpp:99-187, co_ctx.cpp:65-207.) -/
structure Inv2 (cfg : Cfg) (s : State) (tr : List Ev) : Prop where
  lock : ∀ w o, s.op w = some o → (o.pc = .entered ∨ o.pc = .held) → w ∈ s.flock o.tgt
  run : ∀ w o, s.op w = some o → (o.pc = .entered ∨ o.pc = .held) → cfg.th o.who ≠ cfg.th o.tgt → (s.fn o.tgt).fin = false
  awake : ∀ w o, s.op w = some o → o.timed = true → o.pc = .awake → (s.fn o.tgt).fin = true ∨ (s.tm w).past = true
  nodup : ∀ a, (s.subs a).Nodup
  gone : ∀ w a, (s.tm w = .unsubbed ∨ s.tm w = .left ∨ s.tm w = .over) → w ∉ s.subs a
  woke : ∀ w o, s.op w = some o → o.pc.sleepy = false → Ev.resume w ∈ tr ∨
    ∃ pre post, tr = pre ++ Ev.call w o.who o.tgt o.timed :: post ∧ Ev.finished o.tgt ∈ pre

theorem inv2_init (cfg : Cfg) : Inv2 cfg State.init [] := by
  constructor <;> simp [State.init]

theorem more {tr es : List Ev} {w : Nat} {c a : Nat} {t : Bool}
    (h : Ev.resume w ∈ tr ∨ ∃ pre post, tr = pre ++ Ev.call w c a t :: post ∧ Ev.finished a ∈ pre) :
    Ev.resume w ∈ tr ++ es ∨ ∃ pre post, tr ++ es = pre ++ Ev.call w c a t :: post ∧ Ev.finished a ∈ pre := by
  rcases h with h | ⟨p, q, rfl, h⟩
  · exact .inl (by simp [h])
  · exact .inr ⟨p, q ++ es, by simp, h⟩

attribute [local grind =] Pc.sleepy

theorem canLock_holder {cfg : Cfg} {s : State} {a t w : Nat} {o : Op} (h : s.canLock cfg a t = true) (hw : w ∈ s.flock a)
    (ho : s.op w = some o) : cfg.th o.who = t := by
  simp only [State.canLock, List.all_eq_true] at h
  have := h w hw
  simpa [ho] using this

theorem inv2_call {cfg : Cfg} {s s' : State} {w c a : Nat} {timed : Bool} {es tr : List Ev} (hi : Inv cfg s) (hh : Hist s tr) (h : Inv2 cfg s tr)
    (hs : step cfg s (.call w c a timed) = some (s', es)) : Inv2 cfg s' (tr ++ es) := by
  have F := hi.fresh (w := w)
  have K := @canLock_holder cfg s
  have S := hi.subsOp
  obtain ⟨h1, h2, h3, h5, h6, h4⟩ := h
  simp only [step] at hs
  repeat' split at hs
  all_goals first | (simp only [reduceCtorEq] at hs; done) | skip
  all_goals
    simp only [Option.some.injEq, Prod.mk.injEq] at hs
    obtain ⟨rfl, rfl⟩ := hs
    constructor <;> (try dsimp only [State.setPc, State.leave])
    case woke =>
      intro w' o' e1 e2
      by_cases hw : w' = w
      · subst hw
        simp only [set_same, Option.some.injEq] at e1
        subst e1
        first
        | (exfalso; simp [Pc.sleepy] at e2; done)
        | exact .inr ⟨tr, [], rfl, (hh.fin a).2 ‹_›⟩
      · rw [set_other _ _ hw] at e1
        exact more (h4 w' o' e1 e2)
    all_goals grind

theorem inv2_release {cfg : Cfg} {s s' : State} {a : Nat} {es tr : List Ev} (hi : Inv cfg s) (hh : Hist s tr) (h : Inv2 cfg s tr)
    (hs : step cfg s (.release a) = some (s', es)) : Inv2 cfg s' (tr ++ es) := by
  have K := @canLock_holder cfg s
  obtain ⟨h1, h2, h3, h5, h6, h4⟩ := h
  simp only [step] at hs
  repeat' split at hs
  all_goals first | (simp only [reduceCtorEq] at hs; done) | skip
  all_goals
    simp only [Option.some.injEq, Prod.mk.injEq] at hs
    obtain ⟨rfl, rfl⟩ := hs
    constructor <;> (try dsimp only [State.setPc, State.leave]) <;> grind

theorem inv2_preempt {cfg : Cfg} {s s' : State} {a : Nat} {es tr : List Ev} (hi : Inv cfg s) (hh : Hist s tr) (h : Inv2 cfg s tr)
    (hs : step cfg s (.preempt a) = some (s', es)) : Inv2 cfg s' (tr ++ es) := by
  have K := @canLock_holder cfg s
  obtain ⟨h1, h2, h3, h5, h6, h4⟩ := h
  simp only [step] at hs
  repeat' split at hs
  all_goals first | (simp only [reduceCtorEq] at hs; done) | skip
  all_goals
    simp only [Option.some.injEq, Prod.mk.injEq] at hs
    obtain ⟨rfl, rfl⟩ := hs
    constructor <;> (try dsimp only [State.setPc, State.leave]) <;> grind

theorem inv2_resume {cfg : Cfg} {s s' : State} {a : Nat} {es tr : List Ev} (hi : Inv cfg s) (hh : Hist s tr) (h : Inv2 cfg s tr)
    (hs : step cfg s (.resume a) = some (s', es)) : Inv2 cfg s' (tr ++ es) := by
  have K := @canLock_holder cfg s
  have W := hi.wake
  obtain ⟨h1, h2, h3, h5, h6, h4⟩ := h
  simp only [step] at hs
  repeat' split at hs
  all_goals first | (simp only [reduceCtorEq] at hs; done) | skip
  all_goals
    simp only [Option.some.injEq, Prod.mk.injEq] at hs
    obtain ⟨rfl, rfl⟩ := hs
    constructor <;> (try dsimp only [State.setPc, State.leave]) <;> grind

theorem inv2_check {cfg : Cfg} {s s' : State} {a : Nat} {es tr : List Ev} (hi : Inv cfg s) (hh : Hist s tr) (h : Inv2 cfg s tr)
    (hs : step cfg s (.check a) = some (s', es)) : Inv2 cfg s' (tr ++ es) := by
  have K := @canLock_holder cfg s
  obtain ⟨h1, h2, h3, h5, h6, h4⟩ := h
  simp only [step] at hs
  repeat' split at hs
  all_goals first | (simp only [reduceCtorEq] at hs; done) | skip
  all_goals
    simp only [Option.some.injEq, Prod.mk.injEq] at hs
    obtain ⟨rfl, rfl⟩ := hs
    constructor <;> (try dsimp only [State.setPc, State.leave]) <;> grind

theorem inv2_peek {cfg : Cfg} {s s' : State} {a : Nat} {es tr : List Ev} (hi : Inv cfg s) (hh : Hist s tr) (h : Inv2 cfg s tr)
    (hs : step cfg s (.peek a) = some (s', es)) : Inv2 cfg s' (tr ++ es) := by
  have K := @canLock_holder cfg s
  obtain ⟨h1, h2, h3, h5, h6, h4⟩ := h
  simp only [step] at hs
  repeat' split at hs
  all_goals first | (simp only [reduceCtorEq] at hs; done) | skip
  all_goals
    simp only [Option.some.injEq, Prod.mk.injEq] at hs
    obtain ⟨rfl, rfl⟩ := hs
    constructor <;> (try dsimp only [State.setPc, State.leave]) <;> grind

theorem inv2_clear {cfg : Cfg} {s s' : State} {a : Nat} {es tr : List Ev} (hi : Inv cfg s) (hh : Hist s tr) (h : Inv2 cfg s tr)
    (hs : step cfg s (.clear a) = some (s', es)) : Inv2 cfg s' (tr ++ es) := by
  have K := @canLock_holder cfg s
  obtain ⟨h1, h2, h3, h5, h6, h4⟩ := h
  simp only [step] at hs
  repeat' split at hs
  all_goals first | (simp only [reduceCtorEq] at hs; done) | skip
  all_goals
    simp only [Option.some.injEq, Prod.mk.injEq] at hs
    obtain ⟨rfl, rfl⟩ := hs
    constructor <;> (try dsimp only [State.setPc, State.leave]) <;> grind

theorem inv2_body {cfg : Cfg} {s s' : State} {a : Nat} {r : Res} {es tr : List Ev} (hi : Inv cfg s) (hh : Hist s tr) (h : Inv2 cfg s tr)
    (hs : step cfg s (.body a r) = some (s', es)) : Inv2 cfg s' (tr ++ es) := by
  have K := @canLock_holder cfg s
  obtain ⟨h1, h2, h3, h5, h6, h4⟩ := h
  simp only [step] at hs
  repeat' split at hs
  all_goals first | (simp only [reduceCtorEq] at hs; done) | skip
  all_goals
    simp only [Option.some.injEq, Prod.mk.injEq] at hs
    obtain ⟨rfl, rfl⟩ := hs
    constructor <;> (try dsimp only [State.setPc, State.leave]) <;> grind

theorem inv2_mark {cfg : Cfg} {s s' : State} {a : Nat} {es tr : List Ev} (hi : Inv cfg s) (hh : Hist s tr) (h : Inv2 cfg s tr)
    (hs : step cfg s (.mark a) = some (s', es)) : Inv2 cfg s' (tr ++ es) := by
  have K := @canLock_holder cfg s
  obtain ⟨h1, h2, h3, h5, h6, h4⟩ := h
  simp only [step] at hs
  repeat' split at hs
  all_goals first | (simp only [reduceCtorEq] at hs; done) | skip
  all_goals
    simp only [Option.some.injEq, Prod.mk.injEq] at hs
    obtain ⟨rfl, rfl⟩ := hs
    constructor <;> (try dsimp only [State.setPc, State.leave]) <;> grind

theorem inv2_pub {cfg : Cfg} {s s' : State} {a : Nat} {es tr : List Ev} (hi : Inv cfg s) (hh : Hist s tr) (h : Inv2 cfg s tr)
    (hs : step cfg s (.pub a) = some (s', es)) : Inv2 cfg s' (tr ++ es) := by
  have K := @canLock_holder cfg s
  obtain ⟨h1, h2, h3, h5, h6, h4⟩ := h
  simp only [step] at hs
  repeat' split at hs
  all_goals first | (simp only [reduceCtorEq] at hs; done) | skip
  all_goals
    simp only [Option.some.injEq, Prod.mk.injEq] at hs
    obtain ⟨rfl, rfl⟩ := hs
    constructor <;> (try dsimp only [State.setPc, State.leave]) <;> grind

theorem inv2_deliver {cfg : Cfg} {s s' : State} {a : Nat} {es tr : List Ev} (hi : Inv cfg s) (hh : Hist s tr) (h : Inv2 cfg s tr)
    (hs : step cfg s (.deliver a) = some (s', es)) : Inv2 cfg s' (tr ++ es) := by
  have K := @canLock_holder cfg s
  obtain ⟨h1, h2, h3, h5, h6, h4⟩ := h
  simp only [step] at hs
  repeat' split at hs
  all_goals first | (simp only [reduceCtorEq] at hs; done) | skip
  all_goals
    simp only [Option.some.injEq, Prod.mk.injEq] at hs
    obtain ⟨rfl, rfl⟩ := hs
    constructor <;> (try dsimp only [State.setPc, State.leave]) <;> grind

theorem inv2_leave {cfg : Cfg} {s s' : State} {a : Nat} {es tr : List Ev} (hi : Inv cfg s) (hh : Hist s tr) (h : Inv2 cfg s tr)
    (hs : step cfg s (.leave a) = some (s', es)) : Inv2 cfg s' (tr ++ es) := by
  have K := @canLock_holder cfg s
  obtain ⟨h1, h2, h3, h5, h6, h4⟩ := h
  simp only [step] at hs
  repeat' split at hs
  all_goals first | (simp only [reduceCtorEq] at hs; done) | skip
  all_goals
    simp only [Option.some.injEq, Prod.mk.injEq] at hs
    obtain ⟨rfl, rfl⟩ := hs
    constructor <;> (try dsimp only [State.setPc, State.leave]) <;> grind

theorem inv2_pubEnd {cfg : Cfg} {s s' : State} {a : Nat} {es tr : List Ev} (hi : Inv cfg s) (hh : Hist s tr) (h : Inv2 cfg s tr)
    (hs : step cfg s (.pubEnd a) = some (s', es)) : Inv2 cfg s' (tr ++ es) := by
  have K := @canLock_holder cfg s
  obtain ⟨h1, h2, h3, h5, h6, h4⟩ := h
  simp only [step] at hs
  repeat' split at hs
  all_goals first | (simp only [reduceCtorEq] at hs; done) | skip
  all_goals
    simp only [Option.some.injEq, Prod.mk.injEq] at hs
    obtain ⟨rfl, rfl⟩ := hs
    constructor <;> (try dsimp only [State.setPc, State.leave]) <;> grind

theorem inv2_fire {cfg : Cfg} {s s' : State} {a : Nat} {es tr : List Ev} (hi : Inv cfg s) (hh : Hist s tr) (h : Inv2 cfg s tr)
    (hs : step cfg s (.fire a) = some (s', es)) : Inv2 cfg s' (tr ++ es) := by
  have K := @canLock_holder cfg s
  obtain ⟨h1, h2, h3, h5, h6, h4⟩ := h
  simp only [step] at hs
  repeat' split at hs
  all_goals first | (simp only [reduceCtorEq] at hs; done) | skip
  all_goals
    simp only [Option.some.injEq, Prod.mk.injEq] at hs
    obtain ⟨rfl, rfl⟩ := hs
    constructor <;> (try dsimp only [State.setPc, State.leave]) <;> grind

theorem inv2_run {cfg : Cfg} {s s' : State} {a : Nat} {es tr : List Ev} (hi : Inv cfg s) (hh : Hist s tr) (h : Inv2 cfg s tr)
    (hs : step cfg s (.run a) = some (s', es)) : Inv2 cfg s' (tr ++ es) := by
  have K := @canLock_holder cfg s
  obtain ⟨h1, h2, h3, h5, h6, h4⟩ := h
  simp only [step] at hs
  repeat' split at hs
  all_goals first | (simp only [reduceCtorEq] at hs; done) | skip
  all_goals
    simp only [Option.some.injEq, Prod.mk.injEq] at hs
    obtain ⟨rfl, rfl⟩ := hs
    constructor <;> (try dsimp only [State.setPc, State.leave]) <;> grind

theorem inv2_unsub {cfg : Cfg} {s s' : State} {a : Nat} {es tr : List Ev} (hi : Inv cfg s) (hh : Hist s tr) (h : Inv2 cfg s tr)
    (hs : step cfg s (.unsub a) = some (s', es)) : Inv2 cfg s' (tr ++ es) := by
  have K := @canLock_holder cfg s
  have S := hi.subsOp
  obtain ⟨h1, h2, h3, h5, h6, h4⟩ := h
  simp only [step] at hs
  repeat' split at hs
  all_goals first | (simp only [reduceCtorEq] at hs; done) | skip
  all_goals
    simp only [Option.some.injEq, Prod.mk.injEq] at hs
    obtain ⟨rfl, rfl⟩ := hs
    constructor <;> (try dsimp only [State.setPc, State.leave]) <;> grind

theorem inv2_tleave {cfg : Cfg} {s s' : State} {a : Nat} {es tr : List Ev} (hi : Inv cfg s) (hh : Hist s tr) (h : Inv2 cfg s tr)
    (hs : step cfg s (.tleave a) = some (s', es)) : Inv2 cfg s' (tr ++ es) := by
  have K := @canLock_holder cfg s
  obtain ⟨h1, h2, h3, h5, h6, h4⟩ := h
  simp only [step] at hs
  repeat' split at hs
  all_goals first | (simp only [reduceCtorEq] at hs; done) | skip
  all_goals
    simp only [Option.some.injEq, Prod.mk.injEq] at hs
    obtain ⟨rfl, rfl⟩ := hs
    constructor <;> (try dsimp only [State.setPc, State.leave]) <;> grind

theorem inv2_trelease {cfg : Cfg} {s s' : State} {a : Nat} {es tr : List Ev} (hi : Inv cfg s) (hh : Hist s tr) (h : Inv2 cfg s tr)
    (hs : step cfg s (.trelease a) = some (s', es)) : Inv2 cfg s' (tr ++ es) := by
  have K := @canLock_holder cfg s
  obtain ⟨h1, h2, h3, h5, h6, h4⟩ := h
  simp only [step] at hs
  repeat' split at hs
  all_goals first | (simp only [reduceCtorEq] at hs; done) | skip
  all_goals
    simp only [Option.some.injEq, Prod.mk.injEq] at hs
    obtain ⟨rfl, rfl⟩ := hs
    constructor <;> (try dsimp only [State.setPc, State.leave]) <;> grind

theorem inv2_step {cfg : Cfg} {s s' : State} {a : Act} {es tr : List Ev} (hi : Inv cfg s) (hh : Hist s tr) (h : Inv2 cfg s tr)
    (hs : step cfg s a = some (s', es)) : Inv2 cfg s' (tr ++ es) := by
  cases a with
  | call => exact inv2_call hi hh h hs
  | release => exact inv2_release hi hh h hs
  | preempt => exact inv2_preempt hi hh h hs
  | resume => exact inv2_resume hi hh h hs
  | check => exact inv2_check hi hh h hs
  | peek => exact inv2_peek hi hh h hs
  | clear => exact inv2_clear hi hh h hs
  | body => exact inv2_body hi hh h hs
  | mark => exact inv2_mark hi hh h hs
  | pub => exact inv2_pub hi hh h hs
  | deliver => exact inv2_deliver hi hh h hs
  | leave => exact inv2_leave hi hh h hs
  | pubEnd => exact inv2_pubEnd hi hh h hs
  | fire => exact inv2_fire hi hh h hs
  | run => exact inv2_run hi hh h hs
  | unsub => exact inv2_unsub hi hh h hs
  | tleave => exact inv2_tleave hi hh h hs
  | trelease => exact inv2_trelease hi hh h hs

theorem all_runs {cfg : Cfg} {as : List Act} {s : State} {es : List Ev} (h : runs (step cfg) State.init as = some (s, es)) :
    Inv cfg s ∧ Hist s es ∧ Inv2 cfg s es := by
  have := runs_hist (step := step cfg) (fun s tr => Inv cfg s ∧ Hist s tr ∧ Inv2 cfg s tr)
    (fun s a s' es tr hI hs => ⟨inv_step hI.1 hs, hist_step hI.1 hI.2.1 hs, inv2_step hI.1 hI.2.1 hI.2.2 hs⟩) as State.init s es []
    ⟨inv_init cfg, hist_init, inv2_init cfg⟩ h
  simpa using this

end Verif.Wait
