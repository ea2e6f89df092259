import Verif.Sched.WaitLive
import Verif.Base.Sum

/-!
# C132: coroutines that wait for each other, without a circle and in a circle

The model of `Verif/Sched/Wait.lean`, driven by programs: coroutine `c` below `n` waits, without time-out, for the coroutines of a list, one after
the other, and then its function is over. What else its function does is not here: it takes steps in which the model does not change. A wait
that throws is caught; the program goes on. When all are done, nobody waits; the question is whether it can come to a stop before.
-/

namespace Verif.Wait

/-- The coroutines and waits, and for whom each coroutine is still going to wait. (The calls are in the program: co_co.h:141-144.) -/
structure DSt where
  w : State
  todo : Nat → List Nat

/-- What the programs do: the next wait of the list; the function of a coroutine below `n` is over when the list is. Everything else is done
by the library (co_env.cpp:153-187, co_ctx.cpp:65-83). -/
def allowed (n : Nat) (s : DSt) : Act → Bool
  | .call _ c a timed => (s.todo c).head? == some a && !timed
  | .body c _ => decide (c < n) && (s.todo c).isEmpty
  | _ => true

/-- The rest of the programs; not in the library. (Concerns co_env.cpp:147-187, co_ctx.cpp:65-83.) -/
def after (todo : Nat → List Nat) : Act → Nat → List Nat
  | .call _ c _ _ => set todo c (todo c).tail
  | _ => todo

/-- One step, of `co_env::wait_ctx` or of the end of a coroutine (co_env.cpp:153-187, co_ctx.cpp:65-83). -/
def dstep (n : Nat) (cfg : Cfg) (s : DSt) (a : Act) : Option (DSt × List Ev) :=
  if allowed n s a then
    match step cfg s.w a with
    | some (u, es) => some (⟨u, after s.todo a⟩, es)
    | none => none
  else none

/-- The start; not in the library. (Concerns co_env.cpp:147-187, co_ctx.cpp:65-83.) -/
def DSt.init (p : Nat → List Nat) : DSt := ⟨State.init, p⟩

/-- The programs: who waits, and for whom. There is no circle: everybody waits only for those of lower rank. (Concerns co_env.cpp:147-187, co_ctx.cpp:65-83.) -/
structure Acyclic (n : Nat) (rank : Nat → Nat) (p : Nat → List Nat) : Prop where
  ok : ∀ c a, a ∈ p c → c < n ∧ a < n ∧ rank a < rank c

theorem dstep_some {n : Nat} {cfg : Cfg} {s s' : DSt} {a : Act} {es : List Ev} (h : dstep n cfg s a = some (s', es)) :
    allowed n s a = true ∧ step cfg s.w a = some (s'.w, es) ∧ s'.todo = after s.todo a := by
  unfold dstep at h
  split at h
  · next ha =>
    cases hs : step cfg s.w a with
    | none => rw [hs] at h; cases h
    | some q =>
      obtain ⟨u, fs⟩ := q
      rw [hs] at h
      simp only [Option.some.injEq, Prod.mk.injEq] at h
      obtain ⟨rfl, rfl⟩ := h
      exact ⟨ha, rfl, rfl⟩
  · cases h

theorem dstep_none {n : Nat} {cfg : Cfg} {s : DSt} {a : Act} (h : dstep n cfg s a = none) (ha : allowed n s a = true) : step cfg s.w a = none := by
  unfold dstep at h
  rw [if_pos ha] at h
  cases hs : step cfg s.w a with
  | none => rfl
  | some q => rw [hs] at h; cases h

/-- Who is in a wait has not ended. (Concerns co_env.cpp:147-187, co_ctx.cpp:65-83.) -/
def BusyRun (s : State) : Prop := ∀ c w, s.busy c = some w → s.fn c = .running

theorem busyRun_step {cfg : Cfg} {s s' : State} {a : Act} {es : List Ev} (hi : BusyRun s) (hs : step cfg s a = some (s', es)) : BusyRun s' := by
  unfold BusyRun at hi ⊢
  cases a <;> simp only [step] at hs <;> repeat' split at hs
  all_goals first | (simp only [reduceCtorEq] at hs; done) | skip
  all_goals
    simp only [Option.some.injEq, Prod.mk.injEq] at hs
    obtain ⟨rfl, rfl⟩ := hs
    simp only [State.setPc, State.leave]
    grind

/-- The invariant. (Concerns co_env.cpp:147-187, co_ctx.cpp:65-83.) -/
structure DInv (n : Nat) (rank : Nat → Nat) (cfg : Cfg) (s : DSt) : Prop where
  inv : Inv cfg s.w
  busy : BusyRun s.w
  plain : ∀ w o, s.w.op w = some o → o.timed = false ∧ o.who < n ∧ o.tgt < n ∧ rank o.tgt < rank o.who
  off : ∀ w, s.w.tm w = .off
  fresh : ∃ N, ∀ w, N ≤ w → s.w.op w = none
  todo : ∀ c a, a ∈ s.todo c → c < n ∧ a < n ∧ rank a < rank c
  noleave : ∀ a w r, s.w.fn a ≠ .leaving w r
  small : ∀ a, s.w.fn a ≠ .running → a < n ∧ s.todo a = []

theorem dinv_init {n : Nat} {rank : Nat → Nat} {cfg : Cfg} {p : Nat → List Nat} (hp : Acyclic n rank p) : DInv n rank cfg (DSt.init p) where
  inv := inv_init cfg
  busy c w h := by simp [DSt.init, State.init] at h
  plain w o h := by simp [DSt.init, State.init] at h
  off w := rfl
  fresh := ⟨0, fun _ _ => rfl⟩
  todo := hp.ok
  noleave a w r h := by simp [DSt.init, State.init] at h
  small a h := by simp [DSt.init, State.init] at h

theorem dinv_step {n : Nat} {rank : Nat → Nat} {cfg : Cfg} {s s' : DSt} {a : Act} {es : List Ev} (h : DInv n rank cfg s)
    (hs : dstep n cfg s a = some (s', es)) : DInv n rank cfg s' := by
  obtain ⟨ha, hst, ht⟩ := dstep_some hs
  have hi := inv_step h.inv hst
  have hb := busyRun_step h.busy hst
  obtain ⟨h1, h2, h3, h4, ⟨N, h5⟩, h6, h7, h8⟩ := h
  obtain ⟨u, todo⟩ := s'
  simp only at hst ht hi hb
  subst ht
  have hcall : ∀ w c b t, a = .call w c b t → c < n ∧ b < n ∧ rank b < rank c ∧ t = false := by
    rintro w c b t rfl
    simp only [allowed, Bool.and_eq_true, beq_iff_eq, Bool.not_eq_true'] at ha
    have := h6 c b (List.mem_of_mem_head? ha.1)
    exact ⟨this.1, this.2.1, this.2.2, ha.2⟩
  have hbody : ∀ c r, a = .body c r → c < n ∧ s.todo c = [] := by
    rintro c r rfl
    simp only [allowed, Bool.and_eq_true, decide_eq_true_eq, List.isEmpty_iff] at ha
    exact ha
  have haft : ∀ c, s.todo c = [] → after s.todo a c = [] := by
    intro c hc
    cases a <;> simp only [after] <;> try exact hc
    rw [set_apply]; split
    · next h => subst h; rw [hc]; rfl
    · exact hc
  have htodo : ∀ c b, b ∈ after s.todo a c → c < n ∧ b < n ∧ rank b < rank c := by
    intro c b hb'
    refine h6 c b ?_
    cases a <;> simp only [after] at hb' <;> try exact hb'
    rw [set_apply] at hb'
    split at hb'
    · next hc => subst hc; exact List.mem_of_mem_tail hb'
    · exact hb'
  clear ha hs
  refine ⟨hi, hb, ?_, ?_, ?_, htodo, ?_, ?_⟩
  · clear hi hb htodo
    cases a <;> simp only [step] at hst <;> repeat' split at hst
    all_goals first | (simp only [reduceCtorEq] at hst; done) | skip
    all_goals
      simp only [Option.some.injEq, Prod.mk.injEq] at hst
      obtain ⟨rfl, rfl⟩ := hst
      simp only [State.setPc, State.leave]
      grind
  · clear hi hb htodo
    cases a <;> simp only [step] at hst <;> repeat' split at hst
    all_goals first | (simp only [reduceCtorEq] at hst; done) | skip
    all_goals
      simp only [Option.some.injEq, Prod.mk.injEq] at hst
      obtain ⟨rfl, rfl⟩ := hst
      simp only [State.setPc, State.leave]
      grind
  · clear hi hb htodo
    have hop : ∀ x, (∀ w c b t, a = .call w c b t → x ≠ w) → s.w.op x = none → u.op x = none := by
      intro x
      cases a <;> simp only [step] at hst <;> repeat' split at hst
      all_goals first | (simp only [reduceCtorEq] at hst; done) | skip
      all_goals
        simp only [Option.some.injEq, Prod.mk.injEq] at hst
        obtain ⟨rfl, rfl⟩ := hst
        simp only [State.setPc, State.leave]
        grind
    cases a with
    | call w c b t => exact ⟨max N (w + 1), fun x hx => hop x (fun w' c' b' t' he => by cases he; omega) (h5 x (by omega))⟩
    | _ => exact ⟨N, fun x hx => hop x (fun w' c' b' t' he => by cases he) (h5 x hx)⟩
  · clear hi hb htodo
    cases a <;> simp only [step] at hst <;> repeat' split at hst
    all_goals first | (simp only [reduceCtorEq] at hst; done) | skip
    all_goals
      simp only [Option.some.injEq, Prod.mk.injEq] at hst
      obtain ⟨rfl, rfl⟩ := hst
      simp only [State.setPc, State.leave]
      grind
  · have hf : ∀ x, u.fn x ≠ .running → s.w.fn x ≠ .running ∨ ∃ r, a = .body x r := by
      clear hi hb htodo haft hcall hbody
      intro x
      by_cases hbx : ∃ r, a = .body x r
      · exact fun _ => .inr hbx
      have hbx' : ∀ c r, a = .body c r → x ≠ c := by
        rintro c r rfl rfl; exact hbx ⟨r, rfl⟩
      clear hbx
      intro hx
      left
      revert hx
      cases a <;> simp only [step] at hst <;> repeat' split at hst
      all_goals first | (simp only [reduceCtorEq] at hst; done) | skip
      all_goals
        simp only [Option.some.injEq, Prod.mk.injEq] at hst
        obtain ⟨rfl, rfl⟩ := hst
        simp only [State.setPc, State.leave]
        grind
    intro x hx
    rcases hf x hx with h | ⟨r, h⟩
    · exact ⟨(h8 x h).1, haft x (h8 x h).2⟩
    · exact ⟨(hbody x r h).1, haft x (hbody x r h).2⟩

theorem dinv {n : Nat} {rank : Nat → Nat} {cfg : Cfg} {p : Nat → List Nat} (hp : Acyclic n rank p) {as : List Act} {s : DSt} {es : List Ev}
    (h : runs (dstep n cfg) (DSt.init p) as = some (s, es)) : DInv n rank cfg s :=
  runs_inv (step := dstep n cfg) (DInv n rank cfg) (fun _ _ _ _ hI hs => dinv_step hI hs) as _ s es (dinv_init hp) h

/-- What it means that nothing can go on: who has not ended waits for somebody who has not ended either. -/
theorem stuck_waits {n : Nat} {rank : Nat → Nat} {cfg : Cfg} (hpre : cfg.pre = false) {s : DSt} (h : DInv n rank cfg s)
    (hst : ∀ a, dstep n cfg s a = none) (c : Nat) (hc : c < n) :
    (s.w.fn c = .done ∧ s.todo c = []) ∨ ∃ w o, s.w.op w = some o ∧ o.who = c ∧ o.pc = .parked ∧ s.w.fn o.tgt = .running := by
  obtain ⟨hi, hb, hp, ho, ⟨N, hN⟩, ht, hl, hs⟩ := h
  have hx : ∀ c, s.w.fn c = .done → s.todo c = [] := fun c hc => (hs c (by rw [hc]; simp)).2
  have hlib : ∀ a, (∀ w c b t, a ≠ .call w c b t) → (∀ c r, a ≠ .body c r) → step cfg s.w a = none := fun a h1 h2 =>
    dstep_none (hst a) (by
      cases a with
      | call w c b t => exact absurd rfl (h1 w c b t)
      | body c r => exact absurd rfl (h2 c r)
      | _ => rfl)
  -- nobody is in the middle of a wait
  have hpc : ∀ w o, s.w.op w = some o → o.pc = .parked ∧ s.w.keys o.who ≠ [] ∨ o.pc = .over := by
    intro w o how
    have h1 := hlib (.release w) (by simp) (by simp)
    have h2 := hlib (.resume w) (by simp) (by simp)
    have h3 := hlib (.check w) (by simp) (by simp)
    have h4 := hlib (.peek w) (by simp) (by simp)
    have h5 := hlib (.clear w) (by simp) (by simp)
    have h6 := hi.pre hpre w o how
    have h7 := (hp w o how).1
    simp only [step, how, h7] at h1 h2 h3 h4 h5
    cases hpc : o.pc with
    | entered => simp [hpc] at h1
    | held => exact absurd hpc h6
    | parked => simp [hpc] at h2; exact .inl ⟨rfl, h2⟩
    | awake => simp [hpc] at h3
    | last => simp only [hpc, if_true] at h4; split at h4 <;> cases h4
    | peeked e => simp [hpc] at h5
    | over => exact .inr rfl
  have hflock : ∀ a, s.w.flock a = [] := by
    intro a
    cases hf : s.w.flock a with
    | nil => rfl
    | cons w l =>
      obtain ⟨o, h1, _, h2⟩ := hi.lock a w (by simp [hf])
      rcases hpc w o h1 with ⟨h3, _⟩ | h3 <;> rw [h3] at h2 <;> simp at h2
  have hcl : ∀ a t, s.w.canLock cfg a t = true := fun a t => by simp [State.canLock, hflock]
  -- nobody is in the middle of its end
  have hfn : ∀ a, s.w.fn a = .running ∨ s.w.fn a = .done := by
    intro a
    have h1 := hlib (.mark a) (by simp) (by simp)
    have h2 := hlib (.pub a) (by simp) (by simp)
    have h3 := hlib (.deliver a) (by simp) (by simp)
    have h4 := hlib (.pubEnd a) (by simp) (by simp)
    simp only [step, hcl] at h1 h2 h3 h4
    cases hf : s.w.fn a with
    | running => exact .inl rfl
    | body => simp [hf] at h1
    | marked => simp [hf] at h2
    | pubbing rest =>
      cases rest with
      | nil => simp [hf] at h4
      | cons w rest =>
        obtain ⟨o, h5, h6⟩ := hi.restOp a w (by simp [hf, Fn.rest])
        simp [hf, h5, (hp w o h5).1] at h3
    | leaving w rest => exact absurd hf (hl a w rest)
    | done => exact .inr rfl
  have hwait : ∀ w o, s.w.op w = some o → o.pc ≠ .over → o.pc = .parked ∧ s.w.fn o.tgt = .running := by
    intro w o h1 h2
    rcases hpc w o h1 with ⟨h3, h4⟩ | h3
    · refine ⟨h3, ?_⟩
      have hk : o.key w ∈ s.w.keys o.who := Decidable.byContradiction fun hk => h4 (hi.only_key h1 h2 hk)
      have hw := hi.sleep w o h1 (by rw [h3]; rfl) hk
      rcases hfn o.tgt with h5 | h5
      · exact h5
      · rw [h5] at hw; simp only [willWake, ho w] at hw; cases hw
    · exact absurd h3 h2
  cases hbz : s.w.busy c with
  | some w =>
    obtain ⟨o, h1, h2, h3⟩ := hi.busyOp c w hbz
    obtain ⟨h4, h5⟩ := hwait w o h1 h3
    exact .inr ⟨w, o, h1, h2, h4, h5⟩
  | none =>
    left
    have htd : s.todo c = [] ∨ s.w.fn c ≠ .running := by
      cases htc : s.todo c with
      | nil => exact .inl rfl
      | cons a rest =>
        right
        intro hr
        have h1 := dstep_none (hst (.call N c a false)) (by simp [allowed, htc])
        have hne : c ≠ a := by
          rintro rfl
          have := (ht c c (by simp [htc])).2.2
          omega
        simp only [step] at h1
        rw [if_pos ⟨hN N (Nat.le_refl _), hbz, hr, hne, hcl _ _⟩] at h1
        split at h1 <;> cases h1
    rcases hfn c with hr | hd
    · rcases htd with htd | htd
      · have h1 := dstep_none (hst (.body c (.val 0))) (by simp [allowed, htd, hc])
        simp [step, hr, hbz] at h1
      · exact absurd hr htd
    · exact ⟨hd, hx c hd⟩

/-! ## The trace -/

/-- For whom `c` has called `wait_ctx`, in the order of the calls (co_env.cpp:153-155). -/
def callsOf (c : Nat) (es : List Ev) : List Nat :=
  es.filterMap fun e => match e with
    | .call _ d a _ => if d = c then some a else none
    | _ => none

/-- Wait `w` has come back: with the result, with the exception, or without either (co_env.cpp:147-151, 178-186). -/
def Back (w : Nat) (es : List Ev) : Prop := (∃ v, Ev.ret w v ∈ es) ∨ (∃ e, Ev.throw w e ∈ es) ∨ Ev.retNone w ∈ es

theorem runs_step {n : Nat} {cfg : Cfg} {as : List Act} {s s' : DSt} {es : List Ev} (h : runs (dstep n cfg) s as = some (s', es)) :
    runs (step cfg) s.w as = some (s'.w, es) := by
  induction as generalizing s es with
  | nil =>
    simp only [runs, Option.some.injEq, Prod.mk.injEq] at h ⊢
    exact ⟨by rw [h.1], h.2⟩
  | cons a as ih =>
    obtain ⟨u, e1, e2, h1, h2, rfl⟩ := runs_cons h
    have h3 := (dstep_some h1).2.1
    have h4 := ih h2
    simp only [runs, h3, h4]

/-- Proof device: what is over has come back, and only timed waits without a result. (Concerns co_env.cpp:147-187, co_ctx.cpp:65-83.) -/
structure BackInv (s : State) (tr : List Ev) : Prop where
  back : ∀ w o, s.op w = some o → o.pc = .over → Back w tr
  none : ∀ w, Ev.retNone w ∈ tr → ∃ o, s.op w = some o ∧ o.timed = true

theorem mem_app {α : Type} {x : α} {a b : List α} : x ∈ a ++ b ↔ x ∈ a ∨ x ∈ b := List.mem_append

theorem backInv_step {cfg : Cfg} {s s' : State} {a : Act} {es tr : List Ev} (h : BackInv s tr) (hs : step cfg s a = some (s', es)) :
    BackInv s' (tr ++ es) := by
  obtain ⟨h1, h3⟩ := h
  cases a <;> simp only [step] at hs <;> repeat' split at hs
  all_goals first | (simp only [reduceCtorEq] at hs; done) | skip
  all_goals
    simp only [Option.some.injEq, Prod.mk.injEq] at hs
    obtain ⟨rfl, rfl⟩ := hs
    refine ⟨?_, ?_⟩ <;> simp only [Back, State.setPc, State.leave, mem_app] at * <;> grind

theorem backInv {cfg : Cfg} {as : List Act} {s : State} {es : List Ev} (h : runs (step cfg) State.init as = some (s, es)) : BackInv s es := by
  have := runs_hist (step := step cfg) BackInv
    (fun s a s' es tr hI hs => backInv_step hI hs) as State.init s es []
    ⟨by simp [State.init], by simp⟩ h
  simpa using this

theorem busyRun {cfg : Cfg} {as : List Act} {s : State} {es : List Ev} (h : runs (step cfg) State.init as = some (s, es)) : BusyRun s :=
  runs_inv (step := step cfg) BusyRun (fun _ _ _ _ hI hs => busyRun_step hI hs) as _ s es (by intro c w h; simp [State.init] at h) h

theorem callsOf_append (c : Nat) (a b : List Ev) : callsOf c (a ++ b) = callsOf c a ++ callsOf c b := List.filterMap_append ..

theorem step_calls {cfg : Cfg} {s s' : State} {a : Act} {es : List Ev} (hs : step cfg s a = some (s', es)) (c : Nat) :
    callsOf c es = match a with
      | .call _ d b _ => if d = c then [b] else []
      | _ => [] := by
  cases a <;> simp only [step] at hs <;> repeat' split at hs
  all_goals first | (simp only [reduceCtorEq] at hs; done) | skip
  all_goals
    simp only [Option.some.injEq, Prod.mk.injEq] at hs
    obtain ⟨rfl, rfl⟩ := hs
    simp only [callsOf]
    grind

theorem calls_todo {n : Nat} {cfg : Cfg} {p : Nat → List Nat} {as : List Act} {s : DSt} {es : List Ev}
    (h : runs (dstep n cfg) (DSt.init p) as = some (s, es)) (c : Nat) : callsOf c es ++ s.todo c = p c := by
  have := runs_hist (step := dstep n cfg) (fun s tr => callsOf c tr ++ s.todo c = p c)
    (fun s a s' es tr hI hs => by
      obtain ⟨ha, hst, ht⟩ := dstep_some hs
      rw [callsOf_append, step_calls hst, ht, ← hI]
      cases a <;> simp only [after, List.append_nil]
      next w d b t =>
        simp only [allowed, Bool.and_eq_true, beq_iff_eq] at ha
        rw [set_apply]
        by_cases hd : c = d
        · subst hd
          rw [if_pos rfl, if_pos rfl, List.append_assoc]
          cases htc : s.todo c with
          | nil => rw [htc] at ha; cases ha.1
          | cons x l => rw [htc] at ha; simp at ha; simp [ha.1]
        · rw [if_neg hd, if_neg (Ne.symm hd), List.append_nil]) as (DSt.init p) s es [] (by simp [callsOf, DSt.init]) h
  simpa using this

/-! ## No circle -/

/-- **C132, no circle.** Coroutines wait for each other, each for a list of others, in any order and number, without time-out, and there is no circle.
Then as long as something is left to do, somebody can go on: when nothing can go on, every coroutine has made all its calls, each call has
come back (with the result or the exception), and all have ended. -/
theorem C132_no_deadlock_partial {n : Nat} {rank : Nat → Nat} {cfg : Cfg} (hpre : cfg.pre = false) {p : Nat → List Nat} (hp : Acyclic n rank p)
    {as : List Act} {s : DSt} {es : List Ev} (h : runs (dstep n cfg) (DSt.init p) as = some (s, es)) (hst : ∀ a, dstep n cfg s a = none) :
    ∀ c, c < n → Ev.pubDone c ∈ es ∧ callsOf c es = p c ∧
      ∀ w a t, Ev.call w c a t ∈ es → (∃ v, Ev.ret w v ∈ es) ∨ ∃ e, Ev.throw w e ∈ es := by
  have hd := dinv hp h
  have hr := runs_step h
  have hbi := backInv hr
  obtain ⟨hi, hh, -⟩ := all_runs hr
  have hall : ∀ k c, c < n → rank c < k → s.w.fn c = .done := by
    intro k
    induction k with
    | zero => intro c _ h; omega
    | succ k ih =>
      intro c hc hk
      rcases stuck_waits hpre hd hst c hc with ⟨h1, -⟩ | ⟨w, o, h1, h2, h3, h4⟩
      · exact h1
      · obtain ⟨-, -, h5, h6⟩ := hd.plain w o h1
        rw [h2] at h6
        rw [ih o.tgt h5 (by omega)] at h4
        cases h4
  intro c hc
  have hdone := hall _ c hc (Nat.lt_succ_self _)
  refine ⟨(hh.pubd c).2 hdone, ?_, ?_⟩
  · have := calls_todo h c
    rwa [(hd.small c (by rw [hdone]; simp)).2, List.append_nil] at this
  · intro w a t hw
    rw [hh.call] at hw
    cases ho : s.w.op w with
    | none => rw [ho] at hw; cases hw
    | some o =>
      rw [ho] at hw
      simp only [Option.map_some, Option.some.injEq, Prod.mk.injEq] at hw
      have hov : o.pc = .over := Decidable.byContradiction fun hne => by
        have h1 := hi.opBusy w o ho hne
        have h2 := hd.busy _ _ h1
        rw [hw.1, hdone] at h2; cases h2
      rcases hbi.back w o ho hov with h1 | h1 | h1
      · exact .inl h1
      · exact .inr h1
      · obtain ⟨o', h2, h3⟩ := hbi.none w h1
        rw [ho] at h2; cases h2
        rw [(hd.plain w o ho).1] at h3; cases h3

/-! ## It comes to an end -/

/-- Proof device: steps left of a wait. (Concerns co_env.cpp:147-187, co_ctx.cpp:65-83.) -/
def pcW : Pc → Nat
  | .entered => 6
  | .held => 5
  | .parked => 4
  | .awake => 3
  | .last => 2
  | .peeked _ => 1
  | .over => 0

/-- Proof device: steps left of coroutine `c` in its waits. (Concerns co_env.cpp:147-187, co_ctx.cpp:65-83.) -/
def leftA (s : DSt) (c : Nat) : Nat :=
  8 * (s.todo c).length + match s.w.busy c with
    | some w => match s.w.op w with
      | some o => pcW o.pc
      | none => 0
    | none => 0

/-- Proof device: steps left of coroutine `a` at its end. (Concerns co_env.cpp:147-187, co_ctx.cpp:65-83.) -/
def leftB (s : State) (a : Nat) : Nat :=
  match s.fn a with
  | .running => 4 + (s.subs a).length
  | .body => 3 + (s.subs a).length
  | .marked => 2 + (s.subs a).length
  | .pubbing rest => 1 + rest.length
  | .leaving _ rest => 2 + rest.length
  | .done => 0

attribute [local grind =] pcW leftA leftB Fn.fin Fn.rest

theorem left_step {n : Nat} {rank : Nat → Nat} {cfg : Cfg} {s s' : DSt} {a : Act} {es : List Ev} (h : DInv n rank cfg s)
    (hs : dstep n cfg s a = some (s', es)) : ∃ c b, c < n ∧ b < n ∧ (∀ x, x ≠ c → leftA s' x = leftA s x) ∧ (∀ x, x ≠ b → leftB s'.w x = leftB s.w x) ∧
      leftA s' c + leftB s'.w b < leftA s c + leftB s.w b := by
  obtain ⟨ha, hst, ht⟩ := dstep_some hs
  obtain ⟨hi, h2, h3, h4, -, h6, h7, h8⟩ := h
  obtain ⟨u, todo⟩ := s'
  obtain ⟨s, td⟩ := s
  simp only at hst ht hi h2 h3 h4 h6 h7 h8
  subst ht
  have hB := hi.busyOp
  have hO := hi.opBusy
  have hR := hi.restOp
  clear hi hs
  cases a with
  | call w c b t =>
    have hcb := h6 c b (by simp only [allowed, Bool.and_eq_true, beq_iff_eq] at ha; exact List.mem_of_mem_head? ha.1)
    refine ⟨c, b, hcb.1, hcb.2.1, ?_⟩
    simp only [allowed, Bool.and_eq_true, beq_iff_eq] at ha
    cases htc : td c with
    | nil => rw [htc] at ha; cases ha.1
    | cons x l =>
      simp only [step] at hst
      repeat' split at hst
      all_goals first | (simp only [reduceCtorEq] at hst; done) | skip
      all_goals
        simp only [Option.some.injEq, Prod.mk.injEq] at hst
        obtain ⟨rfl, rfl⟩ := hst
        refine ⟨?_, ?_, ?_⟩ <;> simp only [leftA, leftB, after] <;> grind
  | release w =>
    simp only [step] at hst
    split at hst
    · next o ho =>
      refine ⟨o.who, o.who, (h3 w o ho).2.1, (h3 w o ho).2.1, ?_⟩
      have hpl := (h3 w o ho).1
      have hbz := hO w o ho
      repeat' split at hst
      all_goals first | (simp only [reduceCtorEq] at hst; done) | skip
      all_goals
        simp only [Option.some.injEq, Prod.mk.injEq] at hst
        obtain ⟨rfl, rfl⟩ := hst
        refine ⟨?_, ?_, ?_⟩ <;> simp only [leftA, leftB, after, State.setPc] <;> grind
    · cases hst
  | preempt w =>
    simp only [step] at hst
    split at hst
    · next o ho =>
      refine ⟨o.who, o.who, (h3 w o ho).2.1, (h3 w o ho).2.1, ?_⟩
      have hpl := (h3 w o ho).1
      have hbz := hO w o ho
      repeat' split at hst
      all_goals first | (simp only [reduceCtorEq] at hst; done) | skip
      all_goals
        simp only [Option.some.injEq, Prod.mk.injEq] at hst
        obtain ⟨rfl, rfl⟩ := hst
        refine ⟨?_, ?_, ?_⟩ <;> simp only [leftA, leftB, after, State.setPc] <;> grind
    · cases hst
  | resume w =>
    simp only [step] at hst
    split at hst
    · next o ho =>
      refine ⟨o.who, o.who, (h3 w o ho).2.1, (h3 w o ho).2.1, ?_⟩
      have hpl := (h3 w o ho).1
      have hbz := hO w o ho
      repeat' split at hst
      all_goals first | (simp only [reduceCtorEq] at hst; done) | skip
      all_goals
        simp only [Option.some.injEq, Prod.mk.injEq] at hst
        obtain ⟨rfl, rfl⟩ := hst
        refine ⟨?_, ?_, ?_⟩ <;> simp only [leftA, leftB, after, State.setPc] <;> grind
    · cases hst
  | check w =>
    simp only [step] at hst
    split at hst
    · next o ho =>
      refine ⟨o.who, o.who, (h3 w o ho).2.1, (h3 w o ho).2.1, ?_⟩
      have hpl := (h3 w o ho).1
      have hbz := hO w o ho
      repeat' split at hst
      all_goals first | (simp only [reduceCtorEq] at hst; done) | skip
      all_goals
        simp only [Option.some.injEq, Prod.mk.injEq] at hst
        obtain ⟨rfl, rfl⟩ := hst
        refine ⟨?_, ?_, ?_⟩ <;> simp only [leftA, leftB, after, State.setPc] <;> grind
    · cases hst
  | peek w =>
    simp only [step] at hst
    split at hst
    · next o ho =>
      refine ⟨o.who, o.who, (h3 w o ho).2.1, (h3 w o ho).2.1, ?_⟩
      have hpl := (h3 w o ho).1
      have hbz := hO w o ho
      repeat' split at hst
      all_goals first | (simp only [reduceCtorEq] at hst; done) | skip
      all_goals
        simp only [Option.some.injEq, Prod.mk.injEq] at hst
        obtain ⟨rfl, rfl⟩ := hst
        refine ⟨?_, ?_, ?_⟩ <;> simp only [leftA, leftB, after, State.setPc] <;> grind
    · cases hst
  | clear w =>
    simp only [step] at hst
    split at hst
    · next o ho =>
      refine ⟨o.who, o.who, (h3 w o ho).2.1, (h3 w o ho).2.1, ?_⟩
      have hpl := (h3 w o ho).1
      have hbz := hO w o ho
      repeat' split at hst
      all_goals first | (simp only [reduceCtorEq] at hst; done) | skip
      all_goals
        simp only [Option.some.injEq, Prod.mk.injEq] at hst
        obtain ⟨rfl, rfl⟩ := hst
        refine ⟨?_, ?_, ?_⟩ <;> simp only [leftA, leftB, after, State.setPc] <;> grind
    · cases hst
  | body x r =>
    simp only [step] at hst
    repeat' split at hst
    all_goals first | (simp only [reduceCtorEq] at hst; done) | skip
    all_goals
      simp only [Option.some.injEq, Prod.mk.injEq] at hst
      obtain ⟨rfl, rfl⟩ := hst
      refine ⟨x, x, (by simp only [allowed, Bool.and_eq_true, decide_eq_true_eq] at ha; exact ha.1), (by simp only [allowed, Bool.and_eq_true, decide_eq_true_eq] at ha; exact ha.1), ?_, ?_, ?_⟩ <;> simp only [leftA, leftB, after] <;> grind
  | mark x =>
    simp only [step] at hst
    repeat' split at hst
    all_goals first | (simp only [reduceCtorEq] at hst; done) | skip
    all_goals
      simp only [Option.some.injEq, Prod.mk.injEq] at hst
      obtain ⟨rfl, rfl⟩ := hst
      refine ⟨x, x, (h8 x (by grind)).1, (h8 x (by grind)).1, ?_, ?_, ?_⟩ <;> simp only [leftA, leftB, after] <;> grind
  | pub x =>
    simp only [step] at hst
    repeat' split at hst
    all_goals first | (simp only [reduceCtorEq] at hst; done) | skip
    all_goals
      simp only [Option.some.injEq, Prod.mk.injEq] at hst
      obtain ⟨rfl, rfl⟩ := hst
      refine ⟨x, x, (h8 x (by grind)).1, (h8 x (by grind)).1, ?_, ?_, ?_⟩ <;> simp only [leftA, leftB, after] <;> grind
  | deliver x =>
    simp only [step] at hst
    repeat' split at hst
    all_goals first | (simp only [reduceCtorEq] at hst; done) | skip
    all_goals
      simp only [Option.some.injEq, Prod.mk.injEq] at hst
      obtain ⟨rfl, rfl⟩ := hst
      refine ⟨x, x, (h8 x (by grind)).1, (h8 x (by grind)).1, ?_, ?_, ?_⟩ <;> simp only [leftA, leftB, after, State.leave] <;> grind
  | pubEnd x =>
    simp only [step] at hst
    repeat' split at hst
    all_goals first | (simp only [reduceCtorEq] at hst; done) | skip
    all_goals
      simp only [Option.some.injEq, Prod.mk.injEq] at hst
      obtain ⟨rfl, rfl⟩ := hst
      refine ⟨x, x, (h8 x (by grind)).1, (h8 x (by grind)).1, ?_, ?_, ?_⟩ <;> simp only [leftA, leftB, after] <;> grind
  | leave x =>
    simp only [step] at hst
    repeat' split at hst
    all_goals grind
  | fire w =>
    simp only [step, h4] at hst
    repeat' split at hst
    all_goals grind
  | run w =>
    simp only [step, h4] at hst
    repeat' split at hst
    all_goals grind
  | unsub w =>
    simp only [step, h4] at hst
    repeat' split at hst
    all_goals grind
  | tleave w =>
    simp only [step, h4] at hst
    repeat' split at hst
    all_goals grind
  | trelease w =>
    simp only [step, h4] at hst
    repeat' split at hst
    all_goals grind

/-- Proof device: steps left. (Concerns co_env.cpp:147-187, co_ctx.cpp:65-83.) -/
def left (n : Nat) (s : DSt) : Nat := sumOver (List.range n) (leftA s) + sumOver (List.range n) (leftB s.w)

theorem left_lt {n : Nat} {rank : Nat → Nat} {cfg : Cfg} {s s' : DSt} {a : Act} {es : List Ev} (h : DInv n rank cfg s)
    (hs : dstep n cfg s a = some (s', es)) : left n s' < left n s := by
  obtain ⟨c, b, hc, hb, h1, h2, h3⟩ := left_step h hs
  have h4 := sumOver_single List.nodup_range (List.mem_range.2 hc) h1
  have h5 := sumOver_single List.nodup_range (List.mem_range.2 hb) h2
  unfold left
  omega

theorem left_runs {n : Nat} {rank : Nat → Nat} {cfg : Cfg} {as : List Act} {s s' : DSt} {es : List Ev} (hd : DInv n rank cfg s)
    (h : runs (dstep n cfg) s as = some (s', es)) : as.length + left n s' ≤ left n s := by
  induction as generalizing s es with
  | nil =>
    simp only [runs, Option.some.injEq, Prod.mk.injEq] at h
    rw [h.1]; simp
  | cons a as ih =>
    obtain ⟨u, e1, e2, h1, h2, rfl⟩ := runs_cons h
    have h3 := ih (dinv_step hd h1) h2
    have h4 := left_lt hd h1
    simp only [List.length_cons]
    omega

/-- **C132, no going on for ever.** Without a circle (even with the preemption window open) the waits and ends take a bounded number of steps: at
most 4 for each coroutine and 8 for each call in its list. So every fair run gets to where nothing can go on. -/
theorem C132_bounded {n : Nat} {rank : Nat → Nat} {cfg : Cfg} {p : Nat → List Nat} (hp : Acyclic n rank p)
    {as : List Act} {s : DSt} {es : List Ev} (h : runs (dstep n cfg) (DSt.init p) as = some (s, es)) :
    as.length ≤ ((List.range n).map fun c => 4 + 8 * (p c).length).sum := by
  have h1 := left_runs (dinv_init (cfg := cfg) hp) h
  have h2 : left n (DSt.init p) = ((List.range n).map fun c => 4 + 8 * (p c).length).sum := by
    unfold left sumOver
    rw [show leftB (DSt.init p).w = fun _ => 4 by funext a; simp [leftB, DSt.init, State.init],
      show leftA (DSt.init p) = fun c => 8 * (p c).length by funext c; simp [leftA, DSt.init, State.init]]
    induction List.range n with
    | nil => rfl
    | cons c l ih => simp only [List.map_cons, List.sum_cons] at ih ⊢; omega
  omega

/-- **C132, it can be finished from everywhere.** Without a circle and without the preemption window: whatever has happened so far, there is a way on after which
every coroutine has made all its calls, each call has come back and all have ended. -/
theorem C132_finishes_partial {n : Nat} {rank : Nat → Nat} {cfg : Cfg} (hpre : cfg.pre = false) {p : Nat → List Nat} (hp : Acyclic n rank p)
    {as : List Act} {s : DSt} {es : List Ev} (h : runs (dstep n cfg) (DSt.init p) as = some (s, es)) :
    ∃ bs s' fs, runs (dstep n cfg) s bs = some (s', fs) ∧ ∀ c, c < n → Ev.pubDone c ∈ es ++ fs ∧ callsOf c (es ++ fs) = p c ∧
      ∀ w a t, Ev.call w c a t ∈ es ++ fs → (∃ v, Ev.ret w v ∈ es ++ fs) ∨ ∃ e, Ev.throw w e ∈ es ++ fs := by
  have hmax : ∀ k (s : DSt), DInv n rank cfg s → left n s ≤ k → ∃ bs s' fs, runs (dstep n cfg) s bs = some (s', fs) ∧ ∀ a, dstep n cfg s' a = none := by
    intro k
    induction k with
    | zero =>
      intro s hd hk
      refine ⟨[], s, [], rfl, fun a => ?_⟩
      cases hs : dstep n cfg s a with
      | none => rfl
      | some q => have := left_lt hd hs; omega
    | succ k ih =>
      intro s hd hk
      by_cases hst : ∀ a, dstep n cfg s a = none
      · exact ⟨[], s, [], rfl, hst⟩
      · obtain ⟨a, ha⟩ := Classical.not_forall.1 hst
        cases hs : dstep n cfg s a with
        | none => exact absurd hs ha
        | some q =>
          obtain ⟨u, e1⟩ := q
          have h1 := left_lt hd hs
          obtain ⟨bs, s', fs, h2, h3⟩ := ih u (dinv_step hd hs) (by omega)
          exact ⟨a :: bs, s', e1 ++ fs, by simp only [runs, hs, h2], h3⟩
  obtain ⟨bs, s', fs, h1, h2⟩ := hmax _ s (dinv hp h) (Nat.le_refl _)
  exact ⟨bs, s', fs, h1, C132_no_deadlock_partial hpre hp (runs_append h h1) h2⟩

/-! ## A circle -/

/-- Proof device: the coroutines of `S` are all in untimed waits for one of `S`. (Concerns co_env.cpp:147-187, co_ctx.cpp:65-83.) -/
def Circle (S : Nat → Prop) (s : State) : Prop := ∀ c, S c → ∃ w o, s.busy c = some w ∧ s.op w = some o ∧ o.timed = false ∧ S o.tgt

theorem circle_one {cfg : Cfg} {s s' : State} {a : Act} {es : List Ev} (hi : Inv cfg s) {w : Nat} {o : Op} (ho : s.op w = some o) (ht : o.timed = false)
    (hb : s.busy o.who = some w) (hr : s.fn o.tgt = .running) (hs : step cfg s a = some (s', es)) :
    s'.busy o.who = some w ∧ (s'.op w).map (fun o => (o.timed, o.tgt)) = some (false, o.tgt) ∧
      (∀ r, Ev.fnOver o.who r ∉ es) ∧ ¬ Back w es ∧ Ev.resume w ∉ es := by
  have hov : o.pc ≠ .over := by
    obtain ⟨o', h1, h2, h3⟩ := hi.busyOp _ _ hb
    rw [ho] at h1; cases h1; exact h3
  have h1 : o.pc ≠ .awake := fun e => by have := hi.late w o ho ht (.inl e); rw [hr] at this; cases this
  have h2 : o.pc ≠ .last := fun e => by have := hi.late' w o ho (.inl e); rw [hr] at this; cases this
  have h3 : ∀ x, o.pc ≠ .peeked x := fun x e => by have := hi.late' w o ho (.inr ⟨x, e⟩); rw [hr] at this; cases this
  have hsl : o.pc.sleepy = true := by cases hpc : o.pc <;> simp_all [Pc.sleepy]
  have hk : s.keys o.who ≠ [] := by
    intro hk
    have := hi.wake w o ho hsl (by rw [hk]; simp)
    rw [hr, ht] at this; simp [Fn.fin] at this
  have hB := hi.opBusy
  clear hi hsl
  simp only [Back]
  cases a <;> simp only [step] at hs <;> repeat' split at hs
  all_goals first | (simp only [reduceCtorEq] at hs; done) | skip
  all_goals
    simp only [Option.some.injEq, Prod.mk.injEq] at hs
    obtain ⟨rfl, rfl⟩ := hs
    simp only [State.setPc, State.leave]
    refine ⟨?_, ?_, ?_, ?_, ?_⟩ <;> grind

theorem circle_runs {S : Nat → Prop} {cfg : Cfg} {bs : List Act} {s s' : State} {fs : List Ev} (hi : Inv cfg s) (hb : BusyRun s) (hc : Circle S s)
    (h : runs (step cfg) s bs = some (s', fs)) : ∀ c w, S c → s.busy c = some w → (∀ r, Ev.fnOver c r ∉ fs) ∧ ¬ Back w fs ∧ Ev.resume w ∉ fs := by
  induction bs generalizing s fs with
  | nil =>
    simp only [runs, Option.some.injEq, Prod.mk.injEq] at h
    obtain ⟨-, rfl⟩ := h
    simp [Back]
  | cons b bs ih =>
    obtain ⟨u, e1, e2, h1, h2, rfl⟩ := runs_cons h
    have hone : ∀ c w, S c → s.busy c = some w → ∃ o, s.op w = some o ∧ S o.tgt ∧ u.busy c = some w ∧
        (u.op w).map (fun o => (o.timed, o.tgt)) = some (false, o.tgt) ∧ (∀ r, Ev.fnOver c r ∉ e1) ∧ ¬ Back w e1 ∧ Ev.resume w ∉ e1 := by
      intro c w hS hbw
      obtain ⟨w', o, k1, k2, k3, k4⟩ := hc c hS
      rw [hbw] at k1; cases k1
      obtain ⟨o', k5, k6, -⟩ := hi.busyOp c w hbw
      rw [k2] at k5; cases k5
      obtain ⟨w2, o2, k7, -⟩ := hc o.tgt k4
      subst k6
      exact ⟨o, k2, k4, circle_one hi k2 k3 hbw (hb _ _ k7) h1⟩
    have hc' : Circle S u := by
      intro c hS
      obtain ⟨w, o, k1, k2, k3, k4⟩ := hc c hS
      obtain ⟨o1, k5, k6, k7, k8, -⟩ := hone c w hS k1
      obtain ⟨o', k9, k10⟩ := Option.map_eq_some_iff.1 k8
      simp only [Prod.mk.injEq] at k10
      exact ⟨w, o', k7, k9, k10.1, by rw [k10.2]; exact k6⟩
    intro c w hS hbw
    obtain ⟨o1, k5, k6, k7, -, k8, k9, k10⟩ := hone c w hS hbw
    obtain ⟨j1, j2, j3⟩ := ih (inv_step hi h1) (busyRun_step hb h1) hc' h2 c w hS k7
    refine ⟨fun r hm => ?_, ?_, fun hm => ?_⟩
    · rcases List.mem_append.1 hm with hm | hm
      · exact k8 r hm
      · exact j1 r hm
    · rintro (⟨v, hm⟩ | ⟨v, hm⟩ | hm) <;> rcases List.mem_append.1 hm with hm | hm
      · exact k9 (.inl ⟨v, hm⟩)
      · exact j2 (.inl ⟨v, hm⟩)
      · exact k9 (.inr (.inl ⟨v, hm⟩))
      · exact j2 (.inr (.inl ⟨v, hm⟩))
      · exact k9 (.inr (.inr hm))
      · exact j2 (.inr (.inr hm))
    · rcases List.mem_append.1 hm with hm | hm
      · exact k10 hm
      · exact j3 hm

/-- **C132, a circle.** Any coroutines that are each in a wait without time-out for one of them: none of these waits ever comes back and none of
these functions is ever over, whatever the others do, and timers, and whether or not there is a preemption window. The library does not notice. -/
theorem C132_circle_forever (S : Nat → Prop) {cfg : Cfg} {as bs : List Act} {s s' : State} {es fs : List Ev}
    (h : runs (step cfg) State.init as = some (s, es))
    (hS : ∀ c, S c → ∃ w a, Ev.call w c a false ∈ es ∧ ¬ Back w es ∧ S a)
    (h' : runs (step cfg) s bs = some (s', fs)) :
    ∀ c w a t, S c → Ev.call w c a t ∈ es → ¬ Back w es → (∀ r, Ev.fnOver c r ∉ es ++ fs) ∧ ¬ Back w (es ++ fs) ∧ Ev.resume w ∉ fs := by
  obtain ⟨hi, hh, -⟩ := all_runs h
  have hb := busyRun h
  have hbi := backInv h
  have hop : ∀ w c a t, Ev.call w c a t ∈ es → ¬ Back w es → s.busy c = some w ∧ ∃ o, s.op w = some o ∧ o.timed = t ∧ o.tgt = a := by
    intro w c a t hw hnb
    rw [hh.call] at hw
    cases ho : s.op w with
    | none => rw [ho] at hw; cases hw
    | some o =>
      rw [ho] at hw
      simp only [Option.map_some, Option.some.injEq, Prod.mk.injEq] at hw
      obtain ⟨rfl, rfl, rfl⟩ := hw
      exact ⟨hi.opBusy w o ho (fun e => hnb (hbi.back w o ho e)), o, rfl, rfl, rfl⟩
  have hc : Circle S s := by
    intro c hSc
    obtain ⟨w, a, h1, h2, h3⟩ := hS c hSc
    obtain ⟨h4, o, h5, h6, h7⟩ := hop w c a false h1 h2
    exact ⟨w, o, h4, h5, h6, by rw [h7]; exact h3⟩
  intro c w a t hSc hw hnb
  obtain ⟨h1, -⟩ := hop w c a t hw hnb
  obtain ⟨j1, j2, j3⟩ := circle_runs hi hb hc h' c w hSc h1
  have hrun := hh.run c (hb _ _ h1)
  refine ⟨fun r hm => ?_, ?_, j3⟩
  · rcases List.mem_append.1 hm with hm | hm
    · exact hrun.1 r hm
    · exact j1 r hm
  · rintro (⟨v, hm⟩ | ⟨v, hm⟩ | hm) <;> rcases List.mem_append.1 hm with hm | hm
    · exact hnb (.inl ⟨v, hm⟩)
    · exact j2 (.inl ⟨v, hm⟩)
    · exact hnb (.inr (.inl ⟨v, hm⟩))
    · exact j2 (.inr (.inl ⟨v, hm⟩))
    · exact hnb (.inr (.inr hm))
    · exact j2 (.inr (.inr hm))

/-! ## Cases -/

/-- 3 waits for 1 and then 2, both of which wait for 0; not in the library. (Concerns co_env.cpp:147-187, co_ctx.cpp:65-83.) -/
def diamond (c : Nat) : List Nat := if c = 3 then [1, 2] else if c = 1 ∨ c = 2 then [0] else []

/-- The diamond has no circle. -/
theorem diamond_acyclic : Acyclic 4 id diamond where
  ok c a h := by
    unfold diamond at h
    repeat' split at h
    all_goals simp at h
    · subst_vars; simp; omega
    · subst_vars; rename_i h1; rcases h1 with rfl | rfl <;> simp

/-- A run of the diamond; the function of 1 throws, 2 waits late; not in the library. (Concerns co_env.cpp:147-187, co_ctx.cpp:65-83.) -/
def diamondRun : List Act :=
  [.call 10 3 1 false, .call 11 1 0 false, .body 0 (.val 5), .release 11, .release 10, .mark 0, .call 12 2 0 false, .pub 0, .deliver 0, .check 12,
   .pubEnd 0, .resume 11, .check 11, .peek 11, .body 1 (.exc 7), .mark 1, .pub 1, .deliver 1, .resume 10, .check 10, .peek 10, .clear 10,
   .call 13 3 2 false, .release 13, .peek 12, .pubEnd 1, .body 2 (.val 8), .mark 2, .pub 2, .deliver 2, .pubEnd 2, .resume 13, .check 13, .peek 13,
   .body 3 (.val 9), .mark 3, .pub 3, .pubEnd 3]

/-- It gets to the end of all, within the bound. -/
example : ∃ s es, runs (dstep 4 ⟨id, id, false⟩) (DSt.init diamond) diamondRun = some (s, es) ∧ (∀ c, c < 4 → Ev.pubDone c ∈ es) ∧
    es.filter (fun e => match e with | .ret .. => true | .throw .. => true | _ => false) =
      [.ret 11 (some 5), .throw 10 7, .ret 12 (some 5), .ret 13 (some 8)] ∧
    callsOf 3 es = [1, 2] ∧ diamondRun.length = 38 ∧ 38 ≤ ((List.range 4).map fun c => 4 + 8 * (diamond c).length).sum :=
  ⟨_, _, rfl, by decide, by decide, by decide, by decide, by decide⟩

/-- From the middle of it there is a way to the end. -/
example : ∃ s es, runs (dstep 4 ⟨id, id, false⟩) (DSt.init diamond) (diamondRun.take 9) = some (s, es) ∧
    ∃ bs s' fs, runs (dstep 4 ⟨id, id, false⟩) s bs = some (s', fs) ∧ ∀ c, c < 4 → Ev.pubDone c ∈ es ++ fs := by
  obtain ⟨s, es, h⟩ : ∃ s es, runs (dstep 4 ⟨id, id, false⟩) (DSt.init diamond) (diamondRun.take 9) = some (s, es) := ⟨_, _, rfl⟩
  obtain ⟨bs, s', fs, h1, h2⟩ := C132_finishes_partial (cfg := ⟨id, id, false⟩) rfl diamond_acyclic h
  exact ⟨s, es, h, bs, s', fs, h1, fun c hc => (h2 c hc).1⟩

/-- Coroutines 1, 2, 3 wait for each other in a circle, 4 waits for 1 with a time-out, which ends its wait: the theorem says that 1, 2, 3 wait for ever. -/
example : ∃ s es, runs (step ⟨id, id, false⟩) State.init
      [.call 10 1 2 false, .release 10, .call 11 2 3 false, .release 11, .call 14 4 1 true, .release 14, .call 12 3 1 false, .release 12,
       .fire 14, .run 14, .unsub 14, .tleave 14, .trelease 14, .resume 14, .check 14] = some (s, es) ∧ Ev.retNone 14 ∈ es ∧
    ∀ bs s' fs, runs (step ⟨id, id, false⟩) s bs = some (s', fs) → (∀ r, Ev.fnOver 2 r ∉ es ++ fs) ∧ ¬ Back 11 (es ++ fs) := by
  obtain ⟨s, es, h, h1⟩ : ∃ s es, runs (step ⟨id, id, false⟩) State.init
      [.call 10 1 2 false, .release 10, .call 11 2 3 false, .release 11, .call 14 4 1 true, .release 14, .call 12 3 1 false, .release 12,
       .fire 14, .run 14, .unsub 14, .tleave 14, .trelease 14, .resume 14, .check 14] = some (s, es) ∧
      es = [.call 10 1 2 false, .call 11 2 3 false, .call 14 4 1 true, .call 12 3 1 false, .timeout 14, .resume 14, .retNone 14] :=
    ⟨_, _, rfl, by decide⟩
  refine ⟨s, es, h, by rw [h1]; decide, fun bs s' fs h' => ?_⟩
  have := C132_circle_forever (fun c => c = 1 ∨ c = 2 ∨ c = 3) h (by
    rw [h1]
    rintro c (rfl | rfl | rfl)
    · exact ⟨10, 2, by simp, by simp [Back], by simp⟩
    · exact ⟨11, 3, by simp, by simp [Back], by simp⟩
    · exact ⟨12, 1, by simp, by simp [Back], by simp⟩) h' 2 11 3 false (by simp) (by rw [h1]; simp) (by rw [h1]; simp [Back])
  exact ⟨this.1, this.2.1⟩

/-- **C132 is false of the code** while the preemption signal can come between `unlock_schedule` and `unlock_finished_state` (co_env.cpp:174-175): one coroutine
waits for another on another thread, which waits for nobody, and nothing can go on any more, though the function of the other is over. -/
theorem C132_preempted_stuck : ∃ p as s es, Acyclic 2 id p ∧ runs (dstep 2 ⟨id, id, true⟩) (DSt.init p) as = some (s, es) ∧
    (∀ a, dstep 2 ⟨id, id, true⟩ s a = none) ∧ Ev.fnOver 0 (.val 5) ∈ es ∧ Ev.finished 0 ∉ es ∧ Ev.call 10 1 0 false ∈ es ∧ ¬ Back 10 es := by
  refine ⟨fun c => if c = 1 then [0] else [], [.call 10 1 0 false, .body 0 (.val 5), .preempt 10], _, _, ⟨?_⟩, rfl, ?_, ?_⟩
  · intro c a h
    split at h
    · simp at h; subst_vars; decide
    · simp at h
  · intro a
    cases a
    all_goals simp [dstep, allowed, step, DSt.init, State.init, after, State.setPc, State.canLock, set, Fn.fin, Op.key]
    all_goals grind
  · refine ⟨by decide, by decide, by decide, ?_⟩
    simp [Back]

end Verif.Wait
