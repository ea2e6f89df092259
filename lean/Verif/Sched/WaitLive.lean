import Verif.Sched.WaitProps

/-! # C50, C51: waking up waiters, and the three ways in which that fails -/

namespace Verif.Wait

/-! ## C51: what a timed wait returns -/

/-- C51, first part: `nullopt` is returned only by a timed wait whose timer had fired, and only if the awaited coroutine had not finished.
(A value is returned only if it had: `C49_returns_result`.) -/
theorem C51_nullopt {cfg : Cfg} {as : List Act} {s : State} {pre post : List Ev} {w : Nat}
    (h : runs (step cfg) State.init as = some (s, pre ++ .retNone w :: post)) :
    ∃ c a, Ev.call w c a true ∈ pre ∧ Ev.finished a ∉ pre ∧ Ev.timeout w ∈ pre := by
  obtain ⟨as1, act, as2, s1, s2, p1, p2, q1, q2, rfl, h1, h2, h3, rfl, rfl⟩ := runs_split _ _ _ _ _ _ h
  obtain ⟨hi, hh, h2i⟩ := all_runs h1
  have key : p2 = [] ∧ ∃ o, s1.op w = some o ∧ o.pc = .awake ∧ o.timed = true ∧ ¬ (s1.fn o.tgt).fin = true := by
    cases act <;> simp only [step] at h2 <;> repeat' split at h2
    all_goals first | (simp only [reduceCtorEq] at h2; done) | skip
    all_goals
      simp only [Option.some.injEq, Prod.mk.injEq] at h2
      obtain ⟨-, h2⟩ := h2
      have hm : Ev.retNone w ∈ p2 ++ Ev.retNone w :: q1 := by simp
      rw [← h2] at hm
      simp at hm
    subst hm
    refine ⟨?_, _, ‹_›, ‹_›, ‹_›, ‹_›⟩
    cases p2 with
    | nil => rfl
    | cons => simp at h2
  obtain ⟨rfl, o, k1, k2, k3, k4⟩ := key
  refine ⟨o.who, o.tgt, by simpa [k3] using hh.op_call k1, by simpa [hh.fin] using k4, ?_⟩
  rcases h2i.awake w o k1 k3 k2 with k | k
  · exact absurd k k4
  · simpa using (hh.time w).2 k

/-- C50, C51: a wait is resumed only by its own events: the coroutine it waits for finished, or its own timer fired. In particular the
second of the two events of a timed wait does not end a later wait of the same coroutine. -/
theorem C51_no_stray_wakeup {cfg : Cfg} {as : List Act} {s : State} {pre post : List Ev} {w : Nat}
    (h : runs (step cfg) State.init as = some (s, pre ++ .resume w :: post)) :
    ∃ c a t, Ev.call w c a t ∈ pre ∧ (Ev.finished a ∈ pre ∨ (t = true ∧ Ev.timeout w ∈ pre)) := by
  obtain ⟨as1, act, as2, s1, s2, p1, p2, q1, q2, rfl, h1, h2, h3, rfl, rfl⟩ := runs_split _ _ _ _ _ _ h
  obtain ⟨hi, hh, h2i⟩ := all_runs h1
  have key : ∃ o, s1.op w = some o ∧ o.pc.sleepy = true ∧ s1.keys o.who = [] := by
    cases act <;> simp only [step] at h2 <;> repeat' split at h2
    all_goals first | (simp only [reduceCtorEq] at h2; done) | skip
    all_goals
      simp only [Option.some.injEq, Prod.mk.injEq] at h2
      obtain ⟨-, h2⟩ := h2
      have hm : Ev.resume w ∈ p2 ++ Ev.resume w :: q1 := by simp
      rw [← h2] at hm
      simp at hm
    all_goals
      subst hm
      refine ⟨_, ‹_›, ?_, ‹_›⟩
      simp [Pc.sleepy, *]
  obtain ⟨o, k1, k2, k3⟩ := key
  refine ⟨o.who, o.tgt, o.timed, by simp [hh.op_call k1], ?_⟩
  rcases hi.wake w o k1 k2 (by simp [k3]) with k | ⟨k, k'⟩
  · exact .inl (by simp [(hh.fin o.tgt).2 k])
  · exact .inr ⟨k, by simp [(hh.time w).2 k']⟩

/-! ## C50, C51: waking up -/

/-- The registered wait of a coroutine is the wait it is in. -/
theorem Inv.only_key {cfg : Cfg} {s : State} (h : Inv cfg s) {w : Nat} {o : Op} (ho : s.op w = some o) (hp : o.pc ≠ .over)
    (hk : o.key w ∉ s.keys o.who) : s.keys o.who = [] := by
  rcases hl : s.keys o.who with _ | ⟨k, l⟩
  · rfl
  · obtain ⟨w', o', h1, h2, h3, h4⟩ := h.keyOp o.who k (by simp [hl])
    have e1 := h.opBusy w o ho hp
    have e2 := h.opBusy w' o' h1 (by intro e; simp [e, Pc.sleepy] at h4)
    rw [h2, e1] at e2
    cases e2
    rw [ho] at h1; cases h1
    exact absurd (by rw [hl, ← h3]; simp) hk

/-- A wait that sleeps without a registered key can be resumed. -/
theorem resumable {cfg : Cfg} {s : State} (h : Inv cfg s) {w : Nat} {o : Op} (ho : s.op w = some o) (hp : o.pc.sleepy = true)
    (hk : o.key w ∉ s.keys o.who) : ∃ bs s', bs.length ≤ 2 ∧ runs (step cfg) s bs = some (s', [.resume w]) := by
  have hn : o.pc ≠ .over := by intro e; simp [e, Pc.sleepy] at hp
  have hk := h.only_key ho hn hk
  cases hpc : o.pc with
  | entered =>
    have h1 : ∃ u, step cfg s (.release w) = some (u, []) ∧ u.op w = some { o with pc := .parked } ∧ u.keys o.who = [] := by
      exact ⟨_, by simp [step, ho, hpc]; rfl, by simp [State.setPc], by simp only [State.setPc]; exact hk⟩
    obtain ⟨u, h1, hu1, hu2⟩ := h1
    have h2 : ∀ u : State, u.op w = some { o with pc := .parked } → u.keys o.who = [] → ∃ u', step cfg u (.resume w) = some (u', [.resume w]) := by
      intro u k1 k2
      exact ⟨_, by simp [step, k1, k2]; rfl⟩
    obtain ⟨u', h2⟩ := h2 u hu1 hu2
    exact ⟨[.release w, .resume w], u', by simp, by simp only [runs, h1, h2]; rfl⟩
  | held =>
    have h1 : ∃ u, step cfg s (.resume w) = some (u, [.resume w]) := by
      exact ⟨_, by simp [step, ho, hpc, hk]; rfl⟩
    obtain ⟨u, h1⟩ := h1
    exact ⟨[.resume w], u, by simp, by simp only [runs, h1]; rfl⟩
  | parked =>
    have h1 : ∃ u, step cfg s (.resume w) = some (u, [.resume w]) := by
      exact ⟨_, by simp [step, ho, hpc, hk]; rfl⟩
    obtain ⟨u, h1⟩ := h1
    exact ⟨[.resume w], u, by simp, by simp only [runs, h1]; rfl⟩
  | _ => simp [hpc, Pc.sleepy] at hp

/-- C50, first half: however the finish and the start of the wait interleave, once the awaited coroutine has published its end, a wait on
it has been resumed, or began after the finish and never slept, or can be resumed by the scheduler. -/
theorem C50_woken {cfg : Cfg} {as : List Act} {s : State} {es : List Ev} {w c a : Nat}
    (h : runs (step cfg) State.init as = some (s, es)) (hw : Ev.call w c a false ∈ es) (hp : Ev.pubDone a ∈ es) :
    Ev.resume w ∈ es ∨ (∃ pre post, es = pre ++ .call w c a false :: post ∧ Ev.finished a ∈ pre) ∨
      ∃ bs s', bs.length ≤ 2 ∧ runs (step cfg) s bs = some (s', [.resume w]) := by
  obtain ⟨hi, hh, h2i⟩ := all_runs h
  rw [hh.call] at hw
  rw [hh.pubd] at hp
  cases ho : s.op w with
  | none => simp [ho] at hw
  | some o =>
    simp [ho] at hw
    obtain ⟨rfl, rfl, ht⟩ := hw
    cases hpc : o.pc.sleepy with
    | false => 
      rcases h2i.woke w o ho hpc with k | k
      · exact .inl k
      · rw [ht] at k; exact .inr (.inl k)
    | true =>
      refine .inr (.inr (resumable hi ho hpc ?_))
      intro hk
      have := hi.sleep w o ho hpc hk
      simp only [hp, willWake] at this
      obtain ⟨o', k1, k2⟩ := hi.tmOp w (by rw [this]; simp)
      rw [ho] at k1; cases k1
      rw [ht] at k2; cases k2

/-- C51, third part: once a timed wait's timer fired while the awaited coroutine had not finished, the wait has been resumed or can be: the
timer's callback can run to its end. -/
theorem C51_timeout_wakes {cfg : Cfg} {as : List Act} {s : State} {es : List Ev} {w c a : Nat}
    (h : runs (step cfg) State.init as = some (s, es)) (hw : Ev.call w c a true ∈ es) (ht : Ev.timeout w ∈ es)
    (hf : Ev.finished a ∉ es) :
    Ev.resume w ∈ es ∨ ∃ bs s', bs.length ≤ 5 ∧ runs (step cfg) s bs = some (s', [.resume w]) := by
  obtain ⟨hi, hh, h2i⟩ := all_runs h
  rw [hh.call] at hw
  rw [hh.time] at ht
  rw [hh.fin] at hf
  cases ho : s.op w with
  | none => simp [ho] at hw
  | some o =>
    simp [ho] at hw
    obtain ⟨rfl, rfl, hti⟩ := hw
    cases hpc : o.pc.sleepy with
    | false =>
      rcases h2i.woke w o ho hpc with k | ⟨p, q, rfl, k⟩
      · exact .inl k
      · exact absurd ((hh.fin o.tgt).1 (by simp [k])) hf
    | true =>
      have hip : (s.fn o.tgt).inPub = false := by
        cases hfn : s.fn o.tgt <;> simp_all [Fn.fin, Fn.inPub]
      right
      by_cases hk : o.key w ∈ s.keys o.who
      · have key : ∀ (u : State), Inv cfg u → u.op w = some o → u.tm w = .unsubbed →
            ∃ bs s', bs.length ≤ 3 ∧ runs (step cfg) u bs = some (s', [.resume w]) := by
          intro u hu h1 h2
          have hstep : step cfg u (.tleave w) = some ({ u.leave o.who (o.key w) with tm := set u.tm w .left }, []) := by
            simp [step, h1, h2]
          have hu' := inv_step hu hstep
          obtain ⟨bs, s', k1, k2⟩ := resumable hu' (w := w) (o := o) h1 hpc (by simp [State.leave])
          refine ⟨.tleave w :: bs, s', by simp; omega, ?_⟩
          simp only [runs, hstep, k2]; rfl
        have key2 : ∀ (u : State), Inv cfg u → u.op w = some o → u.fn = s.fn → u.tm w = .running →
            ∃ bs s', bs.length ≤ 4 ∧ runs (step cfg) u bs = some (s', [.resume w]) := by
          intro u hu h1 h3 h2
          have hstep : step cfg u (.unsub w) = some ({ u with tm := set u.tm w .unsubbed, subs := set u.subs o.tgt ((u.subs o.tgt).erase w) }, []) := by
            simp [step, h1, h2, h3, hip]
          have hu' := inv_step hu hstep
          obtain ⟨bs, s', k1, k2⟩ := key _ hu' h1 (by simp)
          refine ⟨.unsub w :: bs, s', by simp; omega, ?_⟩
          simp only [runs, hstep, k2]; rfl
        have hslp := hi.sleep w o ho hpc hk
        cases htm : s.tm w with
        | fired =>
          have hstep : step cfg s (.run w) = some ({ s with tm := set s.tm w .running }, []) := by simp [step, htm]
          have hu' := inv_step hi hstep
          obtain ⟨bs, s', k1, k2⟩ := key2 _ hu' ho rfl (by simp)
          refine ⟨.run w :: bs, s', by simp; omega, ?_⟩
          simp only [runs, hstep, k2]; rfl
        | running =>
          obtain ⟨bs, s', k1, k2⟩ := key2 s hi ho rfl htm
          exact ⟨bs, s', by omega, k2⟩
        | unsubbed =>
          obtain ⟨bs, s', k1, k2⟩ := key s hi ho htm
          exact ⟨bs, s', by omega, k2⟩
        | left =>
          have := h2i.gone w o.tgt (by simp [htm])
          cases hfn : s.fn o.tgt <;> simp_all [Fn.fin, willWake]
        | over =>
          have := h2i.gone w o.tgt (by simp [htm])
          cases hfn : s.fn o.tgt <;> simp_all [Fn.fin, willWake]
        | _ => simp [htm, Tm.past, Tm.holds] at ht
      · obtain ⟨bs, s', k1, k2⟩ := resumable hi ho hpc hk
        exact ⟨bs, s', by omega, k2⟩

/-- The steps of the end of coroutine `a`, and the release of `finish_lock__` by waits that just registered. (Concerns co_env.cpp:99-187, co_ctx.cpp:65-207.) -/
def Finishing (a : Nat) (act : Act) : Prop :=
  act = .mark a ∨ act = .pub a ∨ act = .deliver a ∨ act = .leave a ∨ act = .pubEnd a ∨ ∃ w, act = .release w

theorem finish_cons {cfg : Cfg} {s u : State} {a : Nat} {act : Act} {es : List Ev} (hF : Finishing a act)
    (h : step cfg s act = some (u, es))
    (h' : ∃ bs s' fs, (∀ b ∈ bs, Finishing a b) ∧ runs (step cfg) u bs = some (s', fs) ∧ Ev.pubDone a ∈ fs) :
    ∃ bs s' fs, (∀ b ∈ bs, Finishing a b) ∧ runs (step cfg) s bs = some (s', fs) ∧ Ev.pubDone a ∈ fs := by
  obtain ⟨bs, s', fs, h1, h2, h3⟩ := h'
  refine ⟨act :: bs, s', es ++ fs, ?_, by simp only [runs, h, h2], by simp [h3]⟩
  intro b hb
  rcases List.mem_cons.1 hb with rfl | hb
  · exact hF
  · exact h1 b hb

theorem pub_finishes {cfg : Cfg} {a : Nat} : ∀ (rest : List Nat) (s : State), Inv cfg s → s.fn a = .pubbing rest →
    (∀ w ∈ rest, (s.tm w).holds = false) →
    ∃ bs s' fs, (∀ b ∈ bs, Finishing a b) ∧ runs (step cfg) s bs = some (s', fs) ∧ Ev.pubDone a ∈ fs := by
  intro rest
  induction rest with
  | nil =>
    intro s hi hf ht
    have : ∃ u, step cfg s (.pubEnd a) = some (u, [.pubDone a]) := ⟨_, by simp [step, hf]; rfl⟩
    obtain ⟨u, hu⟩ := this
    exact ⟨[.pubEnd a], u, [.pubDone a], by simp [Finishing], by simp only [runs, hu]; rfl, by simp⟩
  | cons w rest ih =>
    intro s hi hf ht
    obtain ⟨o, ho, hoa⟩ := hi.restOp a w (by rw [hf]; simp [Fn.rest])
    cases hti : o.timed with
    | false =>
      have : ∃ u, step cfg s (.deliver a) = some (u, []) ∧ u.fn a = .pubbing rest ∧ u.tm = s.tm :=
        ⟨_, by simp [step, hf, ho, hti]; rfl, by simp, by rfl⟩
      obtain ⟨u, hu, k1, k2⟩ := this
      refine finish_cons (by simp [Finishing]) hu (ih u (inv_step hi hu) k1 ?_)
      intro x hx
      rw [k2]
      exact ht x (List.mem_cons_of_mem _ hx)
    | true =>
      have hw := ht w (by simp)
      have : ∃ u, step cfg s (.deliver a) = some (u, []) ∧ u.fn a = .leaving w rest ∧ u.op w = some o ∧
          u.tm = (if s.tm w = .armed then set s.tm w .stopped else s.tm) :=
        ⟨_, by simp [step, hf, ho, hti, hw]; rfl, by simp, by exact ho, by rfl⟩
      obtain ⟨u, hu, k1, k2, k3⟩ := this
      refine finish_cons (by simp [Finishing]) hu ?_
      have : ∃ v, step cfg u (.leave a) = some (v, []) ∧ v.fn a = .pubbing rest ∧ v.tm = u.tm :=
        ⟨_, by simp [step, k1, k2]; rfl, by simp, by rfl⟩
      obtain ⟨v, hv, k4, k5⟩ := this
      refine finish_cons (by simp [Finishing]) hv (ih v (inv_step (inv_step hi hu) hv) k4 ?_)
      intro x hx
      have := ht x (List.mem_cons_of_mem _ hx)
      rw [k5, k3]
      by_cases e : s.tm w = .armed
      · rw [if_pos e]
        by_cases e' : x = w
        · subst e'; simp [Tm.holds]
        · rw [set_other _ _ e']; exact this
      · rw [if_neg e]; exact this

theorem marked_finishes {cfg : Cfg} {a : Nat} {s : State} (hi : Inv cfg s) (hf : s.fn a = .marked)
    (ht : ∀ w ∈ s.subs a, (s.tm w).holds = false) :
    ∃ bs s' fs, (∀ b ∈ bs, Finishing a b) ∧ runs (step cfg) s bs = some (s', fs) ∧ Ev.pubDone a ∈ fs := by
  have : ∃ u, step cfg s (.pub a) = some (u, []) ∧ u.fn a = .pubbing (s.subs a) ∧ u.tm = s.tm :=
    ⟨_, by simp [step, hf]; rfl, by simp, by rfl⟩
  obtain ⟨u, hu, k1, k2⟩ := this
  exact finish_cons (by simp [Finishing]) hu (pub_finishes _ u (inv_step hi hu) k1 (by rw [k2]; exact ht))

theorem body_finishes {cfg : Cfg} (hpre : cfg.pre = false) {a : Nat} : ∀ (n : Nat) (s : State), (s.flock a).length ≤ n → Inv cfg s →
    s.fn a = .body → (∀ w ∈ s.subs a, (s.tm w).holds = false) →
    ∃ bs s' fs, (∀ b ∈ bs, Finishing a b) ∧ runs (step cfg) s bs = some (s', fs) ∧ Ev.pubDone a ∈ fs := by
  intro n
  induction n with
  | zero =>
    intro s hn hi hf ht
    have he : s.flock a = [] := List.length_eq_zero_iff.1 (by omega)
    have : ∃ u, step cfg s (.mark a) = some (u, [.finished a]) ∧ u.fn a = .marked ∧ u.tm = s.tm ∧ u.subs = s.subs :=
      ⟨_, by simp [step, hf, State.canLock, he]; rfl, by simp, by rfl, by rfl⟩
    obtain ⟨u, hu, k1, k2, k3⟩ := this
    exact finish_cons (by simp [Finishing]) hu (marked_finishes (inv_step hi hu) k1 (by rw [k2, k3]; exact ht))
  | succ n ih =>
    intro s hn hi hf ht
    cases hl : s.flock a with
    | nil => exact ih s (by simp [hl]) hi hf ht
    | cons w l =>
      obtain ⟨o, ho, hoa, hpc⟩ := hi.lock a w (by simp [hl])
      have hpc : o.pc = .entered := by
        rcases hpc with h | h
        · exact h
        · exact absurd h (hi.pre hpre w o ho)
      have : ∃ u, step cfg s (.release w) = some (u, []) ∧ u.fn = s.fn ∧ u.tm = s.tm ∧ u.subs = s.subs ∧
          u.flock a = (s.flock a).filter (· ≠ w) :=
        ⟨_, by simp [step, ho, hpc]; rfl, by rfl, by rfl, by rfl, by simp [hoa]⟩
      obtain ⟨u, hu, k1, k2, k3, k4⟩ := this
      refine finish_cons (by simp [Finishing]) hu (ih u ?_ (inv_step hi hu) (by rw [k1]; exact hf) (by rw [k2, k3]; exact ht))
      rw [k4, hl]
      simp only [ne_eq, not_true_eq_false, decide_false, Bool.false_eq_true, not_false_eq_true, List.filter_cons_of_neg]
      have := List.length_filter_le (fun x => decide (¬ x = w)) l
      rw [hl] at hn
      simp only [List.length_cons] at hn
      omega

/-- C50, second half: if the waits' window between `unlock_schedule` and `unlock_finished_state` is not hit by the preemption signal, and no
timer of a timed wait on this coroutine has fired, then a coroutine whose function is over can always publish its end, by its own steps and
those of waiters inside the critical section of `finish_lock__`. Together with `C50_woken` every waiter is woken. What is missing is
false of the code: `C50_preempted_waiter_deadlock`, `C50_timed_wait_deadlock`. -/
theorem C50_end_is_published_partial {cfg : Cfg} (hpre : cfg.pre = false) {as : List Act} {s : State} {es : List Ev} {a : Nat} {r : Res}
    (h : runs (step cfg) State.init as = some (s, es)) (hr : Ev.fnOver a r ∈ es)
    (ht : ∀ w c, Ev.call w c a true ∈ es → Ev.timeout w ∉ es) :
    Ev.pubDone a ∈ es ∨
    ∃ bs s' fs, (∀ b ∈ bs, Finishing a b) ∧ runs (step cfg) s bs = some (s', fs) ∧ Ev.pubDone a ∈ fs := by
  obtain ⟨hi, hh, h2i⟩ := all_runs h
  have htm : ∀ w o, s.op w = some o → o.tgt = a → (s.tm w).holds = false := by
    intro w o ho hoa
    cases hh' : (s.tm w).holds with
    | false => rfl
    | true =>
      exfalso
      have hp : (s.tm w).past = true := by cases e : s.tm w <;> simp_all [Tm.past, Tm.holds]
      obtain ⟨o', ho', hti⟩ := hi.tmOp w (by intro e; simp [e, Tm.holds] at hh')
      rw [ho] at ho'; cases ho'
      have hc := hh.op_call ho
      rw [hoa, hti] at hc
      exact ht w o.who hc ((hh.time w).2 hp)
  have hsub : ∀ w ∈ s.subs a, (s.tm w).holds = false := by
    intro w hw
    obtain ⟨o, ho, hoa⟩ := hi.subsOp a w hw
    exact htm w o ho hoa
  have hrest : ∀ w ∈ (s.fn a).rest, (s.tm w).holds = false := by
    intro w hw
    obtain ⟨o, ho, hoa⟩ := hi.restOp a w hw
    exact htm w o ho hoa
  cases hf : s.fn a with
  | running => exact absurd hr ((hh.run a hf).1 r)
  | body => exact .inr (body_finishes hpre _ s (Nat.le_refl _) hi hf hsub)
  | marked => exact .inr (marked_finishes hi hf hsub)
  | pubbing rest => exact .inr (pub_finishes rest s hi hf (by simpa [hf, Fn.rest] using hrest))
  | leaving w rest =>
    right
    rw [hf] at hrest
    simp only [Fn.rest] at hrest
    obtain ⟨o, ho, hoa⟩ := hi.restOp a w (by rw [hf]; simp [Fn.rest])
    have : ∃ v, step cfg s (.leave a) = some (v, []) ∧ v.fn a = .pubbing rest ∧ v.tm = s.tm :=
      ⟨_, by simp [step, hf, ho]; rfl, by simp, by rfl⟩
    obtain ⟨v, hv, k4, k5⟩ := this
    refine finish_cons (by simp [Finishing]) hv (pub_finishes rest v (inv_step hi hv) k4 ?_)
    intro x hx
    rw [k5]
    exact hrest x (List.mem_cons_of_mem _ hx)
  | done => exact .inl ((hh.pubd a).2 hf)

/-- Concrete case of C50: a wait begins while the function ends; the end is published and the waiter runs. -/
example : (runs (step ⟨id, id, false⟩) State.init
    [.body 0 (.val 5), .call 10 1 0 false, .release 10, .call 11 2 0 true, .release 11, .mark 0, .pub 0, .deliver 0, .deliver 0,
     .leave 0, .pubEnd 0, .resume 10, .resume 11]).map (·.2) =
    some [.fnOver 0 (.val 5), .call 10 1 0 false, .call 11 2 0 true, .finished 0, .pubDone 0, .resume 10, .resume 11] := by
  decide

/-! ## The deadlocks -/

theorem runs_never {cfg : Cfg} (P : State → Prop) (Q : Ev → Prop)
    (hstep : ∀ s a s' es, P s → step cfg s a = some (s', es) → P s' ∧ ∀ e ∈ es, ¬ Q e) :
    ∀ (bs : List Act) (s s' : State) (fs : List Ev), P s → runs (step cfg) s bs = some (s', fs) → ∀ e ∈ fs, ¬ Q e := by
  intro bs
  induction bs with
  | nil =>
    intro s s' fs hP h
    simp only [runs, Option.some.injEq, Prod.mk.injEq] at h
    obtain ⟨-, rfl⟩ := h
    simp
  | cons b bs ih =>
    intro s s' fs hP h e he
    obtain ⟨u, e1, e2, h1, h2, rfl⟩ := runs_cons h
    obtain ⟨k1, k2⟩ := hstep _ _ _ _ hP h1
    rcases List.mem_append.1 he with he | he
    · exact k2 e he
    · exact ih u s' e2 k1 h2 e he

/-- Proof device: `w` is switched away while it holds `finish_lock__` of its target. (Concerns co_env.cpp:99-187, co_ctx.cpp:65-207.) -/
structure Stuck1 (cfg : Cfg) (s : State) (w c a : Nat) : Prop where
  op : s.op w = some ⟨c, a, false, .held⟩
  lock : w ∈ s.flock a
  fn : s.fn a = .running ∨ s.fn a = .body
  key : Key.ctx a ∈ s.keys c
  th : cfg.th c ≠ cfg.th a

attribute [local grind =] Fn.fin Fn.inPub Tm.holds Tm.past State.leave State.setPc Op.key Fn.rest

theorem Inv.pub_tgt {cfg : Cfg} {s : State} (h : Inv cfg s) {a w : Nat} {rest : List Nat} {o : Op} (hf : s.fn a = .pubbing (w :: rest))
    (ho : s.op w = some o) : o.tgt = a := by
  obtain ⟨o', e1, e2⟩ := h.restOp a w (by rw [hf]; simp [Fn.rest])
  rw [ho] at e1; cases e1; exact e2

theorem Inv.leave_tgt {cfg : Cfg} {s : State} (h : Inv cfg s) {a w : Nat} {rest : List Nat} {o : Op} (hf : s.fn a = .leaving w rest)
    (ho : s.op w = some o) : o.tgt = a := by
  obtain ⟨o', e1, e2⟩ := h.restOp a w (by rw [hf]; simp [Fn.rest])
  rw [ho] at e1; cases e1; exact e2

theorem stuck1_step {cfg : Cfg} {s s' : State} {act : Act} {es : List Ev} {w c a : Nat} (hi : Inv cfg s) (h : Stuck1 cfg s w c a)
    (hs : step cfg s act = some (s', es)) : Stuck1 cfg s' w c a ∧ Ev.finished a ∉ es ∧ Ev.resume w ∉ es := by
  obtain ⟨h1, h2, h3, h4, h5⟩ := h
  have K := @canLock_holder cfg s
  have B := hi.opBusy
  have R1 := @hi.pub_tgt
  have R2 := @hi.leave_tgt
  have L := hi.lock
  have T := hi.tmOp
  cases act <;> simp only [step] at hs <;> repeat' split at hs
  all_goals first | (simp only [reduceCtorEq] at hs; done) | skip
  all_goals
    simp only [Option.some.injEq, Prod.mk.injEq] at hs
    obtain ⟨rfl, rfl⟩ := hs
  all_goals refine ⟨⟨?_, ?_, ?_, ?_, h5⟩, ?_, ?_⟩ <;> (try dsimp only [State.setPc, State.leave]) <;> grind

/-- C50 is false of the code: a waiter on another OS thread that the preemption signal switches away between `unlock_schedule` and
`unlock_finished_state` keeps `finish_lock__` of the awaited coroutine. That one then never gets to the state `finished`, and the waiter
never runs again, whatever happens. -/
theorem C50_preempted_waiter_deadlock {cfg : Cfg} {as bs : List Act} {s s' : State} {es fs : List Ev} {w c a : Nat}
    (h : runs (step cfg) State.init (as ++ [.preempt w]) = some (s, es)) (hw : Ev.call w c a false ∈ es) (hth : cfg.th c ≠ cfg.th a)
    (h' : runs (step cfg) s bs = some (s', fs)) : Ev.finished a ∉ es ++ fs ∧ Ev.resume w ∉ fs := by
  obtain ⟨hi, hh, h2i⟩ := all_runs h
  have hpc : ∃ o, s.op w = some o ∧ o.pc = .held := by
    clear hi hh h2i h' hw
    generalize State.init = s0 at h
    induction as generalizing s0 es with
    | nil =>
      obtain ⟨u, e1, e2, k1, k2, rfl⟩ := runs_cons h
      simp only [runs, Option.some.injEq, Prod.mk.injEq] at k2
      obtain ⟨rfl, -⟩ := k2
      simp only [step] at k1
      repeat' split at k1
      all_goals simp at k1
      obtain ⟨rfl, -⟩ := k1
      exact ⟨_, by simp [State.setPc]; rfl, rfl⟩
    | cons b as ih =>
      obtain ⟨u, e1, e2, k1, k2, rfl⟩ := runs_cons h
      exact ih u k2
  obtain ⟨o, ho, hpc⟩ := hpc
  rw [hh.call, ho] at hw
  simp at hw
  obtain ⟨rfl, rfl, hti⟩ := hw
  have hfin := h2i.run w o ho (.inr hpc) hth
  have hS : Stuck1 cfg s w o.who o.tgt := by
    refine ⟨by rw [ho, ← hpc, ← hti], h2i.lock w o ho (.inr hpc), ?_, ?_, hth⟩
    · cases hf : s.fn o.tgt <;> simp_all [Fn.fin]
    · by_cases hk : o.key w ∈ s.keys o.who
      · simpa [Op.key, hti] using hk
      · rcases hi.wake w o ho (by simp [hpc, Pc.sleepy]) hk with k | ⟨k, _⟩
        · rw [hfin] at k; cases k
        · rw [hti] at k; cases k
  have := runs_never (cfg := cfg) (fun s => Inv cfg s ∧ Stuck1 cfg s w o.who o.tgt) (fun e => e = .finished o.tgt ∨ e = .resume w)
    (fun s a s' es hP hs => by
      obtain ⟨k1, k2, k3⟩ := stuck1_step hP.1 hP.2 hs
      refine ⟨⟨inv_step hP.1 hs, k1⟩, ?_⟩
      rintro e he (rfl | rfl)
      · exact k2 he
      · exact k3 he) bs s s' fs ⟨hi, hS⟩ h'
  refine ⟨?_, fun hm => this _ hm (.inr rfl)⟩
  intro hm
  rcases List.mem_append.1 hm with hm | hm
  · rw [hh.fin, hfin] at hm; cases hm
  · exact this _ hm (.inl rfl)

/-- Such a schedule exists, also with the awaited function already over. -/
theorem C50_preempted_waiter_witness :
    (runs (step ⟨id, id, true⟩) State.init ([.call 10 1 0 false, .body 0 (.val 5)] ++ [.preempt 10])).map (·.2) =
    some [.call 10 1 0 false, .fnOver 0 (.val 5)] := by
  decide

/-- Proof device: the awaited coroutine `a` is in `pub`, about to stop the timer of `w`, whose callback holds the timer's mutex and wants the
event's. (Concerns co_env.cpp:99-187, co_ctx.cpp:65-207.) -/
structure Stuck2 (cfg : Cfg) (s : State) (w c a : Nat) (rest : List Nat) : Prop where
  op : s.op w = some ⟨c, a, true, .parked⟩
  fn : s.fn a = .pubbing (w :: rest)
  tm : s.tm w = .running
  key : Key.timer w ∈ s.keys c
  th : cfg.tth w ≠ cfg.th a
  others : ∀ w' ∈ rest, ∀ c', s.op w' = some ⟨c', a, false, .parked⟩ → Key.ctx a ∈ s.keys c'
  still : ∀ w' ∈ rest, ∃ c', s.op w' = some ⟨c', a, false, .parked⟩

theorem stuck2_step {cfg : Cfg} {s s' : State} {act : Act} {es : List Ev} {w c a : Nat} {rest : List Nat} (hi : Inv cfg s)
    (h : Stuck2 cfg s w c a rest) (hs : step cfg s act = some (s', es)) :
    Stuck2 cfg s' w c a rest ∧ Ev.pubDone a ∉ es ∧ Ev.resume w ∉ es ∧ ∀ w' ∈ rest, Ev.resume w' ∉ es := by
  obtain ⟨h1, h2, h3, h4, h5, h6, h7⟩ := h
  have B := hi.opBusy
  have R1 := @hi.pub_tgt
  have R2 := @hi.leave_tgt
  have T := hi.tmOp
  have KK : ∀ w' c' o, s.op w' = some o → o.who = c' → s.busy c' = some w' ∨ o.pc = .over := by grind
  cases act <;> simp only [step] at hs <;> repeat' split at hs
  all_goals first | (simp only [reduceCtorEq] at hs; done) | skip
  all_goals
    simp only [Option.some.injEq, Prod.mk.injEq] at hs
    obtain ⟨rfl, rfl⟩ := hs
  all_goals refine ⟨⟨?_, ?_, ?_, ?_, h5, ?_, ?_⟩, ?_, ?_, ?_⟩ <;> (try dsimp only [State.setPc, State.leave]) <;> grind

/-- C50 and C51 are false of the code in a second way: a timed wait (10) by coroutine 1 and an untimed wait (11) by coroutine 2 on
coroutine 0. The timer fires while coroutine 0 finishes. `pub` holds the event's mutex and wants the timer's (`timer->stop()`), the timer's
callback holds the timer's and wants the event's (`unsub`). After that neither wait ever returns, whatever happens. -/
theorem C50_timed_wait_deadlock : ∃ cfg as s es, runs (step cfg) State.init as = some (s, es) ∧
    es = [.call 10 1 0 true, .call 11 2 0 false, .timeout 10, .fnOver 0 (.val 5), .finished 0] ∧
    ∀ bs s' fs, runs (step cfg) s bs = some (s', fs) → Ev.pubDone 0 ∉ fs ∧ Ev.resume 10 ∉ fs ∧ Ev.resume 11 ∉ fs := by
  have hw : ((runs (step ⟨id, id, true⟩) State.init [.call 10 1 0 true, .release 10, .call 11 2 0 false, .release 11, .fire 10, .run 10,
      .body 0 (.val 5), .mark 0, .pub 0]).map fun p => (p.1.op 10, p.1.fn 0, p.1.tm 10, p.1.keys 1, p.1.op 11, p.1.keys 2, p.2)) =
      some (some ⟨1, 0, true, .parked⟩, .pubbing [10, 11], .running, [.timer 10], some ⟨2, 0, false, .parked⟩, [.ctx 0],
        [.call 10 1 0 true, .call 11 2 0 false, .timeout 10, .fnOver 0 (.val 5), .finished 0]) := by rfl
  obtain ⟨⟨s, es⟩, h, hf⟩ := Option.map_eq_some_iff.1 hw
  simp only [Prod.mk.injEq] at hf
  obtain ⟨h1, h2, h3, h4, h5, h6, h7⟩ := hf
  refine ⟨_, _, s, es, h, h7, ?_⟩
  intro bs s' fs hr
  obtain ⟨hi, -, -⟩ := all_runs h
  have hS : Stuck2 ⟨id, id, true⟩ s 10 1 0 [11] := by
    refine ⟨h1, h2, h3, by simp [h4], by decide, ?_, ?_⟩
    · intro w' hw' c' hc'
      simp only [List.mem_singleton] at hw'
      subst hw'
      rw [h5] at hc'
      cases hc'
      simp [h6]
    · intro w' hw'
      simp only [List.mem_singleton] at hw'
      subst hw'
      exact ⟨_, h5⟩
  have := runs_never (cfg := ⟨id, id, true⟩) (fun s => Inv ⟨id, id, true⟩ s ∧ Stuck2 ⟨id, id, true⟩ s 10 1 0 [11])
    (fun e => e = .pubDone 0 ∨ e = .resume 10 ∨ e = .resume 11)
    (fun s a s' es hP hs => by
      obtain ⟨k1, k2, k3, k4⟩ := stuck2_step hP.1 hP.2 hs
      refine ⟨⟨inv_step hP.1 hs, k1⟩, ?_⟩
      rintro e he (rfl | rfl | rfl)
      · exact k2 he
      · exact k3 he
      · exact k4 11 (by simp) he) bs s s' fs ⟨hi, hS⟩ hr
  exact ⟨fun m => this _ m (.inl rfl), fun m => this _ m (.inr (.inl rfl)), fun m => this _ m (.inr (.inr rfl))⟩

/-- Concrete case of C51: the time-out comes first; the later end of the awaited coroutine does not disturb the next wait (12) of the
same coroutine, and the first wait returned `nullopt`. -/
example : (runs (step ⟨id, id, true⟩) State.init [.call 10 1 0 true, .release 10, .fire 10, .run 10, .unsub 10, .tleave 10, .resume 10,
    .check 10, .call 12 1 3 false, .release 12, .trelease 10, .body 0 (.val 5), .mark 0, .pub 0, .pubEnd 0]).map
      (fun p => (p.2, (step ⟨id, id, true⟩ p.1 (.resume 12)).isSome)) =
    some ([.call 10 1 0 true, .timeout 10, .resume 10, .retNone 10, .call 12 1 3 false, .fnOver 0 (.val 5), .finished 0, .pubDone 0], false) := by
  decide

end Verif.Wait
