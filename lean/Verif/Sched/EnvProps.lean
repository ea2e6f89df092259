import Verif.Sched.EnvInv

/-! # Properties C43, C44, C45, C46, C55 of one scheduling thread -/

namespace Verif.Sched

/-! ## The view agrees with the state -/

/-- Proof device: how many wake-ups of `c` are in progress. (Concerns co_env.cpp:32-621, co_ctx.cpp:77-207.) -/
def State.wakes (s : State) (c : Nat) : Nat := s.pend.countP fun x => x.1 == c

/-- Proof device. (Concerns co_env.cpp:32-621, co_ctx.cpp:77-207.) -/
structure Agree (s : State) (w : View) : Prop where
  mem : ∀ c, w.mem c = s.mem c
  fin : ∀ c, s.mem c = true → w.fin c = decide ((s.ctx c).st = .finished)
  waits : ∀ c, s.mem c = true → w.waits c = (s.ctx c).res
  prio : ∀ c, s.mem c = true → w.prio c = (s.ctx c).prio
  pinned : ∀ c, s.mem c = true → w.pinned c = ((s.ctx c).bind || (s.ctx c).shared)
  prioOp : ∀ c, w.prioOp c = if s.chg c = none then 0 else 1
  wake : ∀ c, w.wake c = s.wakes c
  last : w.last = s.curr

theorem agree_init : Agree State.init View.init := by
  constructor <;> simp [State.init, View.init, State.wakes]

theorem clamp_eq (v : Int) : (max 0 (min 99 v)).toNat = clamp v := by
  simp only [clamp]
  split
  · omega
  · split <;> omega

theorem wakes_cons (s : State) (l : List (Nat × Ph)) (c d : Nat) (ph : Ph) :
    ({ s with pend := (c, ph) :: l } : State).wakes d = ({ s with pend := l } : State).wakes d + if c = d then 1 else 0 := by
  simp [State.wakes, List.countP_cons]

theorem wakes_erase {s : State} {c : Nat} {ph : Ph} (h : (c, ph) ∈ s.pend) (d : Nat) :
    ({ s with pend := s.pend.erase (c, ph) } : State).wakes d = s.wakes d - if c = d then 1 else 0 := by
  have hp := (List.perm_cons_erase h).countP_eq fun x => x.1 == d
  rw [List.countP_cons] at hp
  simp only [State.wakes, hp]
  by_cases hd : c = d <;> simp [hd]

theorem wakes_pos {s : State} {c : Nat} {ph : Ph} (h : (c, ph) ∈ s.pend) : 0 < s.wakes c := by
  simp only [State.wakes, List.countP_pos_iff]
  exact ⟨_, h, by simp⟩

theorem agree_step {s s' : State} {a : Act} {es : List Ev} {w : View} (hI : Inv s) (h : Agree s w)
    (hs : step false s a = some (s', es)) : Agree s' (es.foldl note w) := by
  obtain ⟨h1, h2, h3, h4, h5, h6, h7, h8⟩ := h
  cases a with
  | add c v =>
    simp only [step] at hs
    split at hs
    · rename_i hc
      simp only [Option.some.injEq, Prod.mk.injEq] at hs
      obtain ⟨rfl, rfl⟩ := hs
      simp only [List.foldl_cons, List.foldl_nil, note]
      refine ⟨?_, ?_, ?_, ?_, ?_, h6, ?_, h8⟩
      · intro d; by_cases hdc : d = c <;> simp [set_apply, hdc, h1]
      · intro d; by_cases hdc : d = c
        · simp [set_apply, hdc, hc]
        · simpa [set_apply, hdc] using h2 d
      · intro d; by_cases hdc : d = c
        · simp [set_apply, hdc]
        · simpa [set_apply, hdc] using h3 d
      · intro d; by_cases hdc : d = c
        · simp [set_apply, hdc]
        · simpa [set_apply, hdc] using h4 d
      · intro d; by_cases hdc : d = c
        · simp [set_apply, hdc]
        · simpa [set_apply, hdc] using h5 d
      · intro d
        have := h7 d
        simp only [State.wakes, List.countP_cons] at this ⊢
        by_cases hdc : d = c
        · subst hdc; simp [this]
        · simp [set_apply, hdc, this, Ne.symm hdc]
    · simp at hs
  | enter c r =>
    simp only [step] at hs
    split at hs
    · rename_i hc
      simp only [Option.some.injEq, Prod.mk.injEq] at hs
      obtain ⟨rfl, rfl⟩ := hs
      simp only [List.foldl_cons, List.foldl_nil, note]
      have hm := (hI.curr c hc.1).1
      refine ⟨h1, ?_, ?_, ?_, ?_, h6, h7, h8⟩
      · intro d hd; have := h2 d hd; by_cases hdc : d = c
        · subst hdc; simpa [Ctx.enter] using this
        · simpa [set_apply, hdc] using this
      · intro d hd; have := h3 d hd; by_cases hdc : d = c
        · subst hdc; simp [Ctx.enter, this]
        · simpa [set_apply, hdc] using this
      · intro d hd; have := h4 d hd; by_cases hdc : d = c
        · subst hdc; simpa [Ctx.enter] using this
        · simpa [set_apply, hdc] using this
      · intro d hd; have := h5 d hd; by_cases hdc : d = c
        · subst hdc; simpa [Ctx.enter] using this
        · simpa [set_apply, hdc] using this
    · simp at hs
  | leave c r =>
    simp only [step] at hs
    split at hs
    · rename_i hc
      simp only [Option.some.injEq, Prod.mk.injEq] at hs
      obtain ⟨rfl, rfl⟩ := hs
      simp only [List.foldl_cons, List.foldl_nil, note]
      refine ⟨h1, ?_, ?_, ?_, ?_, h6, ?_, h8⟩
      · intro d hd; have := h2 d hd; by_cases hdc : d = c
        · subst hdc; simpa [Ctx.leave] using this
        · simpa [set_apply, hdc] using this
      · intro d hd; have := h3 d hd; by_cases hdc : d = c
        · subst hdc; simp [Ctx.leave, this]
        · simpa [set_apply, hdc] using this
      · intro d hd; have := h4 d hd; by_cases hdc : d = c
        · subst hdc; simpa [Ctx.leave] using this
        · simpa [set_apply, hdc] using this
      · intro d hd; have := h5 d hd; by_cases hdc : d = c
        · subst hdc; simpa [Ctx.leave] using this
        · simpa [set_apply, hdc] using this
      · intro d
        have := h7 d
        simp only [State.wakes, List.countP_cons] at this ⊢
        by_cases hdc : d = c
        · subst hdc; simp [this]
        · simp [set_apply, hdc, this, Ne.symm hdc]
    · simp at hs
  | wake c ph =>
    simp only [step] at hs
    split at hs
    · rename_i hmem
      have hpos := wakes_pos hmem
      have hdone : ∀ d, set w.wake c (w.wake c - 1) d = ({ s with pend := s.pend.erase (c, ph) } : State).wakes d := by
        intro d
        rw [wakes_erase hmem]
        by_cases hdc : d = c
        · subst hdc; simp [h7]
        · simp [set_apply, hdc, h7, Ne.symm hdc]
      have hsame : ∀ ph' d, w.wake d = ({ s with pend := (c, ph') :: s.pend.erase (c, ph) } : State).wakes d := by
        intro ph' d
        rw [wakes_cons, wakes_erase hmem, h7]
        by_cases hdc : c = d
        · subst hdc; simp; omega
        · simp [hdc]
      cases ph with
      | test =>
        simp only at hs
        split at hs
        · simp only [Option.some.injEq, Prod.mk.injEq] at hs
          obtain ⟨rfl, rfl⟩ := hs
          exact ⟨h1, h2, h3, h4, h5, h6, hdone, h8⟩
        · split at hs
          · simp only [Option.some.injEq, Prod.mk.injEq] at hs
            obtain ⟨rfl, rfl⟩ := hs
            exact ⟨h1, h2, h3, h4, h5, h6, hdone, h8⟩
          · simp only [Option.some.injEq, Prod.mk.injEq] at hs
            obtain ⟨rfl, rfl⟩ := hs
            exact ⟨h1, h2, h3, h4, h5, h6, hsame _, h8⟩
      | read =>
        simp only at hs
        split at hs
        · simp only [Option.some.injEq, Prod.mk.injEq] at hs
          obtain ⟨rfl, rfl⟩ := hs
          exact ⟨h1, h2, h3, h4, h5, h6, hdone, h8⟩
        · simp only [Option.some.injEq, Prod.mk.injEq] at hs
          obtain ⟨rfl, rfl⟩ := hs
          exact ⟨h1, h2, h3, h4, h5, h6, hsame _, h8⟩
      | upd q =>
        simp only [Option.some.injEq, Prod.mk.injEq] at hs
        obtain ⟨rfl, rfl⟩ := hs
        exact ⟨h1, h2, h3, h4, h5, h6, hdone, h8⟩
    · simp at hs
  | setPrio c v self =>
    simp only [step] at hs
    split at hs
    · rename_i hc
      have e2 : ∀ d, s.mem d = true → w.fin d = decide ((set s.ctx c { s.ctx c with prio := clamp v } d).st = .finished) := by
        intro d hd; have := h2 d hd; by_cases hdc : d = c
        · subst hdc; simpa using this
        · simpa [set_apply, hdc] using this
      have e3 : ∀ d, s.mem d = true → w.waits d = (set s.ctx c { s.ctx c with prio := clamp v } d).res := by
        intro d hd; have := h3 d hd; by_cases hdc : d = c
        · subst hdc; simpa using this
        · simpa [set_apply, hdc] using this
      have e4 : ∀ d, s.mem d = true → set w.prio c (max 0 (min 99 v)).toNat d =
          (set s.ctx c { s.ctx c with prio := clamp v } d).prio := by
        intro d hd; have := h4 d hd; by_cases hdc : d = c
        · subst hdc; simp only [set_same, clamp_eq]
        · simpa [set_apply, hdc] using this
      have e5 : ∀ d, s.mem d = true → w.pinned d = ((set s.ctx c { s.ctx c with prio := clamp v } d).bind ||
          (set s.ctx c { s.ctx c with prio := clamp v } d).shared) := by
        intro d hd; have := h5 d hd; by_cases hdc : d = c
        · subst hdc; simpa using this
        · simpa [set_apply, hdc] using this
      split at hs
      · simp only [Option.some.injEq, Prod.mk.injEq] at hs
        obtain ⟨rfl, rfl⟩ := hs
        exact ⟨h1, e2, e3, e4, e5, h6, h7, h8⟩
      · simp only [Option.some.injEq, Prod.mk.injEq] at hs
        obtain ⟨rfl, rfl⟩ := hs
        refine ⟨h1, e2, e3, e4, e5, ?_, h7, h8⟩
        intro d
        simp only [List.foldl_cons, List.foldl_nil, note]
        by_cases hdc : d = c
        · subst hdc; simp [h6, hc.2.1]
        · simp [set_apply, hdc, h6]
    · simp at hs
  | erase c =>
    simp only [step] at hs
    split at hs
    · rename_i g hg
      split at hs
      · split at hs
        · simp only [Option.some.injEq, Prod.mk.injEq] at hs
          obtain ⟨rfl, rfl⟩ := hs
          refine ⟨h1, h2, h3, h4, h5, ?_, h7, h8⟩
          intro d
          by_cases hdc : d = c
          · subst hdc; simp [h6, hg]
          · simp [set_apply, hdc, h6]
        · simp only [Option.some.injEq, Prod.mk.injEq] at hs
          obtain ⟨rfl, rfl⟩ := hs
          refine ⟨h1, h2, h3, h4, h5, ?_, h7, h8⟩
          intro d
          simp only [List.foldl_cons, List.foldl_nil, note]
          by_cases hdc : d = c
          · subst hdc; simp [h6, hg]
          · simp [set_apply, hdc, h6]
      · simp at hs
    · simp at hs
  | push c =>
    simp only [step] at hs
    split at hs
    · rename_i g hg
      split at hs
      · simp only [Option.some.injEq, Prod.mk.injEq] at hs
        obtain ⟨rfl, rfl⟩ := hs
        refine ⟨h1, h2, h3, h4, h5, ?_, h7, h8⟩
        intro d
        simp only [List.foldl_cons, List.foldl_nil, note, State.updMin]
        by_cases hdc : d = c
        · subst hdc; simp [h6, hg]
        · simp [set_apply, hdc, h6]
      · simp at hs
    · simp at hs
  | finish c =>
    simp only [step] at hs
    split at hs
    · simp only [Option.some.injEq, Prod.mk.injEq] at hs
      obtain ⟨rfl, rfl⟩ := hs
      simp only [List.foldl_cons, List.foldl_nil, note]
      refine ⟨h1, ?_, ?_, ?_, ?_, h6, h7, h8⟩
      · intro d hd; have := h2 d hd; by_cases hdc : d = c
        · subst hdc; simp
        · simpa [set_apply, hdc] using this
      · intro d hd; have := h3 d hd; by_cases hdc : d = c
        · subst hdc; simpa using this
        · simpa [set_apply, hdc] using this
      · intro d hd; have := h4 d hd; by_cases hdc : d = c
        · subst hdc; simpa using this
        · simpa [set_apply, hdc] using this
      · intro d hd; have := h5 d hd; by_cases hdc : d = c
        · subst hdc; simpa using this
        · simpa [set_apply, hdc] using this
    · simp at hs
  | unlock c =>
    simp only [step] at hs
    split at hs
    · simp only [Option.some.injEq, Prod.mk.injEq] at hs
      obtain ⟨rfl, rfl⟩ := hs
      simp only [List.foldl_nil]
      refine ⟨h1, ?_, ?_, ?_, ?_, h6, h7, h8⟩
      · intro d hd; have := h2 d hd; by_cases hdc : d = c
        · subst hdc; simpa using this
        · simpa [set_apply, hdc] using this
      · intro d hd; have := h3 d hd; by_cases hdc : d = c
        · subst hdc; simpa using this
        · simpa [set_apply, hdc] using this
      · intro d hd; have := h4 d hd; by_cases hdc : d = c
        · subst hdc; simpa using this
        · simpa [set_apply, hdc] using this
      · intro d hd; have := h5 d hd; by_cases hdc : d = c
        · subst hdc; simpa using this
        · simpa [set_apply, hdc] using this
    · simp at hs
  | remove c =>
    simp only [step] at hs
    split at hs
    · simp only [Option.some.injEq, Prod.mk.injEq] at hs
      obtain ⟨rfl, rfl⟩ := hs
      simp only [List.foldl_cons, List.foldl_nil, note]
      have hm : ∀ d, set s.mem c false d = true → s.mem d = true := by
        intro d hd; by_cases hdc : d = c
        · simp [hdc] at hd
        · simpa [set_apply, hdc] using hd
      refine ⟨?_, fun d hd => h2 d (hm d hd), fun d hd => h3 d (hm d hd), fun d hd => h4 d (hm d hd), fun d hd => h5 d (hm d hd), h6, h7, h8⟩
      intro d; by_cases hdc : d = c <;> simp [set_apply, hdc, h1]
    · simp at hs
  | pick =>
    simp only [step] at hs
    split at hs
    · simp only [Option.some.injEq, Prod.mk.injEq] at hs
      obtain ⟨rfl, rfl⟩ := hs
      obtain ⟨f1, f2, f3, f4, f5, f6, f7⟩ := pick_fields s
      simp only [List.foldl_cons, List.foldl_nil, note]
      have e := fun c => pick_ctx (s := s) c
      refine ⟨by simpa [f1] using h1, ?_, ?_, ?_, ?_, by simpa [f4] using h6, by simpa [State.wakes, f6] using h7, f7.symm⟩
      · intro d hd
        rw [f1] at hd
        have := h2 d hd
        simp only [(e d).2.2.2.2.2.2.1]
        exact this
      · intro d hd; rw [f1] at hd; rw [(e d).2.1]; exact h3 d hd
      · intro d hd; rw [f1] at hd; rw [(e d).1]; exact h4 d hd
      · intro d hd; rw [f1] at hd; rw [(e d).2.2.2.2.1, (e d).2.2.2.2.2.1]; exact h5 d hd
    · simp at hs
  | takeAll =>
    simp only [step] at hs
    split at hs
    · simp only [Option.some.injEq, Prod.mk.injEq] at hs
      obtain ⟨rfl, rfl⟩ := hs
      simp only [List.foldl_cons, List.foldl_nil, note]
      have hm : ∀ d, (s.mem d && !decide (d ∈ s.movable)) = true → s.mem d = true := by
        intro d hd; simp only [Bool.and_eq_true] at hd; exact hd.1
      refine ⟨?_, fun d hd => h2 d (hm d hd), fun d hd => h3 d (hm d hd), fun d hd => h4 d (hm d hd), fun d hd => h5 d (hm d hd), h6, h7, h8⟩
      intro d; simp [State.takeAll, h1]
    · simp at hs
  | takeOne =>
    simp only [step] at hs
    split at hs
    · split at hs
      · rename_i i c hf
        simp only [Option.some.injEq, Prod.mk.injEq] at hs
        obtain ⟨rfl, rfl⟩ := hs
        simp only [List.foldl_cons, List.foldl_nil, note]
        have hm : ∀ d, set s.mem c false d = true → s.mem d = true := by
          intro d hd; by_cases hdc : d = c
          · simp [hdc] at hd
          · simpa [set_apply, hdc] using hd
        refine ⟨?_, fun d hd => h2 d (hm d hd), fun d hd => h3 d (hm d hd), fun d hd => h4 d (hm d hd), fun d hd => h5 d (hm d hd), h6, h7, h8⟩
        intro d; by_cases hdc : d = c <;> simp [set_apply, hdc, h1]
      · simp only [Option.some.injEq, Prod.mk.injEq] at hs
        obtain ⟨rfl, rfl⟩ := hs
        simp only [List.foldl_cons, List.foldl_nil, note]
        exact ⟨by simpa using h1, h2, h3, h4, h5, h6, h7, h8⟩
    · simp at hs

theorem agree_runs {as : List Act} {s : State} {es : List Ev} (h : runs (step false) State.init as = some (s, es)) :
    Inv s ∧ Agree s (view es) := by
  have := runs_hist (step := step false) (fun s tr => Inv s ∧ Agree s (view tr))
    (fun s a s' es tr hI hs => ⟨inv_step hI.1 hs, by rw [view_append]; exact agree_step hI.1 hI.2 hs⟩) as State.init s es []
    ⟨inv_init, agree_init⟩ h
  simpa using this

/-- Proof device: the pick step itself. -/
theorem pick_only {s1 s2 : State} {a : Act} {p q : List Ev} {o : Option Nat}
    (h : step false s1 a = some (s2, p ++ .pick o :: q)) :
    a = .pick ∧ p = [] ∧ q = [] ∧ s2 = s1.pick.1 ∧ o = s1.pick.2 ∧ s1.mu = none := by
  have key : ∀ l : List Ev, l = p ++ .pick o :: q → Ev.pick o ∈ l := by rintro l rfl; simp
  cases a with
  | pick =>
    simp only [step] at h
    split at h
    · rename_i hmu
      simp only [Option.some.injEq, Prod.mk.injEq] at h
      obtain ⟨rfl, h⟩ := h
      have hl := congrArg List.length h
      simp only [List.length_cons, List.length_nil, List.length_append] at hl
      have hp : p = [] := List.eq_nil_of_length_eq_zero (by omega)
      have hq : q = [] := List.eq_nil_of_length_eq_zero (by omega)
      subst hp; subst hq
      simp only [List.nil_append, List.cons.injEq, Ev.pick.injEq, and_true] at h
      simp only [State.muFree, Bool.or_false, beq_iff_eq] at hmu
      exact ⟨rfl, rfl, rfl, rfl, h.symm, hmu⟩
    · simp at h
  | wake c ph =>
    simp only [step] at h
    split at h
    · cases ph <;> simp only at h <;> repeat' split at h
      all_goals simp only [Option.some.injEq, Prod.mk.injEq] at h
      all_goals (have := key _ h.2; simp at this)
    · simp at h
  | _ =>
    simp only [step] at h
    repeat' split at h
    all_goals first
      | (simp only [Option.some.injEq, Prod.mk.injEq] at h; have := key _ h.2; simp at this)
      | simp at h

/-- Proof device: a pick in a trace, with the state before it. -/
theorem pick_split {as : List Act} {s : State} {pre post : List Ev} {o : Option Nat}
    (h : runs (step false) State.init as = some (s, pre ++ .pick o :: post)) :
    ∃ s1 as1 as2, runs (step false) State.init as1 = some (s1, pre) ∧ o = s1.pick.2 ∧
      runs (step false) s1.pick.1 as2 = some (s, post) ∧ s1.mu = none ∧ Inv s1 ∧ Agree s1 (view pre) := by
  obtain ⟨as1, a, as2, s1, s2, p1, p2, q1, q2, rfl, h1, h2, h3, rfl, rfl⟩ := runs_split as _ _ pre _ post h
  obtain ⟨rfl, rfl, rfl, rfl, rfl, hmu⟩ := pick_only h2
  have := agree_runs h1
  simp only [List.append_nil, List.nil_append]
  exact ⟨s1, as1, as2, h1, rfl, h3, hmu, this.1, this.2⟩

theorem runnable_iff {s : State} {w : View} (hI : Inv s) (h : Agree s w) (c : Nat) :
    w.runnable c ↔ s.mem c = true ∧ (s.ctx c).canSchedule = true := by
  simp only [View.runnable, h.mem]
  constructor
  · rintro ⟨h1, h2, h3⟩
    rw [h.fin c h1] at h2
    rw [h.waits c h1] at h3
    refine ⟨h1, ?_⟩
    have hw := hI.wait c
    rw [h3] at hw
    simp only [decide_eq_false_iff_not] at h2
    cases hst : (s.ctx c).st <;> simp_all [Ctx.canSchedule] <;> rfl
  · rintro ⟨h1, h2⟩
    rw [h.fin c h1, h.waits c h1]
    have hw := hI.wait c
    simp only [Ctx.canSchedule, Bool.and_eq_true, bne_iff_ne, ne_eq, Bool.not_eq_true'] at h2
    rw [h2.2] at hw
    refine ⟨h1, by simpa using h2.1, ?_⟩
    cases hr : (s.ctx c).res with
    | nil => rfl
    | cons => rw [hr] at hw; simp at hw

/-! ## C45 -/

/-- **C45**: the scheduler only ever picks a coroutine of the env that has not finished and has no outstanding wait (so after
several overlapping waits only after the last of them ended). -/
theorem C45_only_runnable {as : List Act} {s : State} {pre post : List Ev} {c : Nat}
    (h : runs (step false) State.init as = some (s, pre ++ .pick (some c) :: post)) : (view pre).runnable c := by
  obtain ⟨s1, _, _, _, ho, _, _, hI, hA⟩ := pick_split h
  rw [runnable_iff hI hA]
  simp only [State.pick] at ho
  split at ho
  · simp at ho
  · rename_i i d hs
    simp only [Option.some.injEq] at ho
    subst ho
    obtain ⟨_, _, h3, h4, _⟩ := search_some hs
    exact ⟨(hI.mem_list.1 h3).1, h4⟩

/-! ## C43 -/

/-- **C43 (partial)**: a pick takes no coroutine if a runnable one of strictly better priority is there, and idles only if no
coroutine is runnable — for every coroutine `d` no wake-up, addition or priority change of which is in progress at that moment. (If
the picked one's own priority is being changed by another thread at that moment, its old priority counted.) -/
theorem C43_best_priority_partial {as : List Act} {s : State} {pre post : List Ev} {o : Option Nat}
    (h : runs (step false) State.init as = some (s, pre ++ .pick o :: post)) {d : Nat} (hd : (view pre).runnable d)
    (hw : (view pre).wake d = 0) (hp : (view pre).prioOp d = 0) :
    ∃ c, o = some c ∧ ((view pre).prioOp c = 0 → (view pre).prio c ≤ (view pre).prio d) := by
  obtain ⟨s1, _, _, _, ho, _, hmu, hI, hA⟩ := pick_split h
  rw [runnable_iff hI hA] at hd
  rw [hA.wake] at hw
  rw [hA.prioOp] at hp
  have hg : s1.chg d = none := by
    cases hg : s1.chg d with
    | none => rfl
    | some g => rw [hg] at hp; simp at hp
  have hlp := lp_none hg
  have hin : d ∈ s1.lists (s1.ctx d).prio := hI.mem_list.2 ⟨hd.1, erased_none hg, hlp.symm⟩
  have hnp : ∀ ph, (d, ph) ∉ s1.pend := fun ph hph => by have := wakes_pos hph; omega
  have hmin : s1.min ≤ (s1.ctx d).prio := by
    rcases hI.hint d hd.1 hd.2 hg with h1 | h1 | h1 | ⟨p, _, h1⟩
    · exact h1
    · exact absurd h1 (hnp _)
    · exact absurd h1 (hnp _)
    · exact absurd h1 (hnp _)
  have hlt := (hI.lt d hd.1).1
  simp only [State.pick] at ho
  split at ho
  · rename_i hs
    have := search_none hs _ hmin hlt d hin
    rw [hd.2] at this; simp at this
  · rename_i i c hs
    simp only at ho
    obtain ⟨_, _, h3, h4, _, h6⟩ := search_some hs
    refine ⟨c, ho, ?_⟩
    have hc := hI.mem_list.1 h3
    rw [hA.prioOp, hA.prio c hc.1, hA.prio d hd.1]
    intro hpc
    have hgc : s1.chg c = none := by
      cases hg : s1.chg c with
      | none => rfl
      | some g => rw [hg] at hpc; simp at hpc
    rw [← lp_none hgc, ← hc.2.2]
    apply Nat.le_of_not_lt
    intro hlt'
    have := h6 _ hmin hlt' d hin
    rw [hd.2] at this; simp at this

/-- A coroutine to be added: priority `p`, ready. (Concerns co_env.cpp:32-621, co_ctx.cpp:77-207.) -/
def ready (p : Nat) : Ctx := ⟨p, .suspended, [], false, true, false, false⟩

/-- Adding a ready coroutine, to the end. (Concerns co_env.cpp:32-621, co_ctx.cpp:77-207.) -/
def addAll (c p : Nat) : List Act := [.add c (ready p), .wake c .read, .wake c (.upd p)]

/-- Non-trivial case of C43 and C45: 1 (priority 5) sleeps on 7 and 8; 2 (priority 9) runs; after one wake-up still 2; after both, 1
runs; then nobody better is there. -/
example : (runs (step false) State.init (addAll 1 5 ++ addAll 2 9 ++ [.pick, .enter 1 7, .enter 1 8, .pick, .leave 1 7, .wake 1 .test,
      .pick, .leave 1 8, .wake 1 .test, .wake 1 .read, .wake 1 (.upd 5), .pick])).map (fun p => (p.2.filter fun e => match e with
        | .pick _ => true
        | _ => false)) = some [.pick (some 1), .pick (some 2), .pick (some 2), .pick (some 1)] := by decide

/-- **C43, the missing part is false**: while a wake-up is still between clearing the waiting flag and lowering `min_priority__`, the
woken coroutine (priority 5, runnable) is passed over for one of priority 9. -/
theorem C43_window : ∃ as s pre post, runs (step false) State.init as = some (s, pre ++ .pick (some 2) :: post) ∧
    (view pre).runnable 1 ∧ (view pre).prio 1 = 5 ∧ (view pre).prio 2 = 9 ∧ (view pre).prioOp 1 = 0 := by
  refine ⟨addAll 1 5 ++ addAll 2 9 ++ [.pick, .enter 1 7, .pick, .leave 1 7, .wake 1 .test, .pick], _,
    [.add 1 5 [] false, .wakeBegin 1, .wakeDone 1, .add 2 9 [] false, .wakeBegin 2, .wakeDone 2, .pick (some 1), .enter 1 7,
      .pick (some 2), .leave 1 7, .wakeBegin 1], [], rfl, ?_⟩
  refine ⟨⟨rfl, rfl, rfl⟩, rfl, rfl, rfl⟩

/-! ## C46 -/

/-- **C46 (partial)**: after every history in which the preemption signal does not arrive inside a priority change, a coroutine of
the env whose priority is not being changed is in exactly one list, once: that of its priority; no list holds anything that is not
in the env; and `ctx_count()` is the number of coroutines of the env. -/
theorem C46_bookkeeping_partial {as : List Act} {s : State} {es : List Ev} (h : runs (step false) State.init as = some (s, es)) :
    (∀ c, (view es).mem c = true → (view es).prioOp c = 0 → ∀ p, (s.lists p).count c = if p = (view es).prio c then 1 else 0) ∧
    (∀ p, ∀ c ∈ s.lists p, (view es).mem c = true) ∧
    ∃ l : List Nat, l.Nodup ∧ (∀ c, c ∈ l ↔ (view es).mem c = true) ∧ s.count = l.length := by
  obtain ⟨hI, hA⟩ := agree_runs h
  refine ⟨?_, ?_, ?_⟩
  · intro c hc hp p
    rw [hA.mem] at hc
    have hg : s.chg c = none := by
      cases hg : s.chg c with
      | none => rfl
      | some g => rw [hA.prioOp, hg] at hp; simp at hp
    rw [hI.one, lp_none hg, erased_none hg, hA.prio c hc]
    simp [hc]
  · intro p c hc
    rw [hA.mem]
    exact (hI.mem_list.1 hc).1
  · obtain ⟨l, h1, h2, h3⟩ := hI.num
    exact ⟨l, h1, fun c => by rw [h2, hA.mem], h3.symm⟩

/-- Non-trivial case: a history with an addition, a change of priority by the coroutine itself, a migration and a removal. -/
example : (runs (step false) State.init (addAll 1 5 ++ addAll 2 9 ++ addAll 3 9 ++ [.pick, .setPrio 1 (-4) true, .erase 1, .push 1,
      .takeOne, .unlock 1, .finish 1, .pick, .remove 1])).map (fun p => (p.1.lists 0, p.1.lists 5, p.1.lists 9, p.1.count))
    = some ([], [], [3], 1) := by decide

/-- Proof device: `c` was switched away from inside its own priority change. (Concerns co_env.cpp:32-621, co_ctx.cpp:77-207.) -/
structure Lost (c : Nat) (s : State) : Prop where
  mem : s.mem c = true
  chg : ∃ g, s.chg c = some g ∧ g.erased = true ∧ g.self = true
  out : ∀ p, c ∉ s.lists p
  cur : s.curr ≠ some c
  st : (s.ctx c).st ≠ .finished

theorem lost_step {c : Nat} {s s' : State} {a : Act} {es : List Ev} (h : Lost c s) (hs : step true s a = some (s', es)) :
    Lost c s' ∧ Ev.pick (some c) ∉ es := by
  obtain ⟨hm, ⟨g, hg, he, hself⟩, ho, hc, hst⟩ := h
  cases a with
  | add d v =>
    simp only [step] at hs
    split at hs
    · rename_i hd
      simp only [Option.some.injEq, Prod.mk.injEq] at hs
      obtain ⟨rfl, rfl⟩ := hs
      have hdc : d ≠ c := by rintro rfl; simp [hm] at hd
      refine ⟨⟨by simp [set_apply, hm], ⟨g, hg, he, hself⟩, ?_, hc, by simpa [set_apply, Ne.symm hdc] using hst⟩, by simp⟩
      intro p
      by_cases hp : p = v.prio
      · simp [hp, ho, Ne.symm hdc]
      · simp [set_apply, hp, ho]
    · simp at hs
  | enter d r =>
    simp only [step] at hs
    split at hs
    · rename_i hd
      simp only [Option.some.injEq, Prod.mk.injEq] at hs
      obtain ⟨rfl, rfl⟩ := hs
      have hdc : d ≠ c := by rintro rfl; exact hc hd.1
      exact ⟨⟨hm, ⟨g, hg, he, hself⟩, ho, hc, by simpa [set_apply, Ne.symm hdc] using hst⟩, by simp⟩
    · simp at hs
  | leave d r =>
    simp only [step] at hs
    split at hs
    · simp only [Option.some.injEq, Prod.mk.injEq] at hs
      obtain ⟨rfl, rfl⟩ := hs
      refine ⟨⟨hm, ⟨g, hg, he, hself⟩, ho, hc, ?_⟩, by simp⟩
      by_cases hdc : c = d
      · subst hdc; simpa [Ctx.leave] using hst
      · simpa [set_apply, hdc] using hst
    · simp at hs
  | wake d ph =>
    simp only [step] at hs
    split at hs
    · cases ph <;> simp only at hs <;> repeat' split at hs
      all_goals (simp only [Option.some.injEq, Prod.mk.injEq] at hs; obtain ⟨rfl, rfl⟩ := hs)
      all_goals exact ⟨⟨hm, ⟨g, hg, he, hself⟩, ho, hc, hst⟩, by simp⟩
    · simp at hs
  | setPrio d v self =>
    simp only [step] at hs
    split at hs
    · rename_i hd
      have hdc : d ≠ c := by rintro rfl; simp [hg] at hd
      split at hs
      · simp only [Option.some.injEq, Prod.mk.injEq] at hs
        obtain ⟨rfl, rfl⟩ := hs
        exact ⟨⟨hm, ⟨g, hg, he, hself⟩, ho, hc, by simpa [set_apply, Ne.symm hdc] using hst⟩, by simp⟩
      · simp only [Option.some.injEq, Prod.mk.injEq] at hs
        obtain ⟨rfl, rfl⟩ := hs
        exact ⟨⟨hm, ⟨g, by simpa [set_apply, Ne.symm hdc] using hg, he, hself⟩, ho, hc, by simpa [set_apply, Ne.symm hdc] using hst⟩, by simp⟩
    · simp at hs
  | erase d =>
    simp only [step] at hs
    split at hs
    · rename_i g' hg'
      split at hs
      · rename_i hd
        have hdc : d ≠ c := by
          rintro rfl
          rw [hg] at hg'
          simp only [Option.some.injEq] at hg'
          subst hg'
          rw [he] at hd; simp at hd
        split at hs
        · simp only [Option.some.injEq, Prod.mk.injEq] at hs
          obtain ⟨rfl, rfl⟩ := hs
          refine ⟨⟨hm, ⟨g, by simpa [set_apply, Ne.symm hdc] using hg, he, hself⟩, ?_, hc, hst⟩, by simp⟩
          intro p
          by_cases hp : p = g'.old
          · simp only [hp, set_same]; exact fun hx => ho _ (List.mem_of_mem_erase hx)
          · simp [set_apply, hp, ho]
        · simp only [Option.some.injEq, Prod.mk.injEq] at hs
          obtain ⟨rfl, rfl⟩ := hs
          exact ⟨⟨hm, ⟨g, by simpa [set_apply, Ne.symm hdc] using hg, he, hself⟩, ho, hc, hst⟩, by simp⟩
      · simp at hs
    · simp at hs
  | push d =>
    simp only [step] at hs
    split at hs
    · rename_i g' hg'
      split at hs
      · rename_i hd
        have hdc : d ≠ c := by
          rintro rfl
          rw [hg] at hg'
          simp only [Option.some.injEq] at hg'
          subst hg'
          exact hc (hd.2 hself)
        simp only [Option.some.injEq, Prod.mk.injEq] at hs
        obtain ⟨rfl, rfl⟩ := hs
        refine ⟨⟨hm, ⟨g, by simpa [State.updMin, set_apply, Ne.symm hdc] using hg, he, hself⟩, ?_, hc, hst⟩, by simp⟩
        intro p
        simp only [State.updMin]
        by_cases hp : p = (s.ctx d).prio
        · simp [hp, ho, Ne.symm hdc]
        · simp [set_apply, hp, ho]
      · simp at hs
    · simp at hs
  | finish d =>
    simp only [step] at hs
    split at hs
    · rename_i hd
      simp only [Option.some.injEq, Prod.mk.injEq] at hs
      obtain ⟨rfl, rfl⟩ := hs
      have hdc : d ≠ c := by rintro rfl; exact hc hd.1
      exact ⟨⟨hm, ⟨g, hg, he, hself⟩, ho, hc, by simpa [set_apply, Ne.symm hdc] using hst⟩, by simp⟩
    · simp at hs
  | unlock d =>
    simp only [step] at hs
    split at hs
    · simp only [Option.some.injEq, Prod.mk.injEq] at hs
      obtain ⟨rfl, rfl⟩ := hs
      refine ⟨⟨hm, ⟨g, hg, he, hself⟩, ho, hc, ?_⟩, by simp⟩
      by_cases hdc : c = d
      · subst hdc; simpa using hst
      · simpa [set_apply, hdc] using hst
    · simp at hs
  | remove d =>
    simp only [step] at hs
    split at hs
    · rename_i hd
      simp only [Option.some.injEq, Prod.mk.injEq] at hs
      obtain ⟨rfl, rfl⟩ := hs
      have hdc : d ≠ c := by rintro rfl; exact hst hd.2.2.1
      refine ⟨⟨by simpa [set_apply, Ne.symm hdc] using hm, ⟨g, hg, he, hself⟩, ?_, hc, hst⟩, by simp⟩
      intro p
      by_cases hp : p = (s.ctx d).prio
      · simp [hp, ho]
      · simp [set_apply, hp, ho]
    · simp at hs
  | pick =>
    simp only [step] at hs
    split at hs
    · simp only [Option.some.injEq, Prod.mk.injEq] at hs
      obtain ⟨rfl, rfl⟩ := hs
      obtain ⟨f1, f2, f3, f4, f5, f6, f7⟩ := pick_fields s
      have e := pick_ctx (s := s) c
      have hne : s.pick.2 ≠ some c := by
        simp only [State.pick]
        split
        · simp
        · rename_i i d hs
          obtain ⟨_, _, h3, _⟩ := search_some hs
          simp only [ne_eq, Option.some.injEq]
          rintro rfl
          exact ho _ h3
      refine ⟨⟨by rw [f1]; exact hm, ⟨g, by rw [f4]; exact hg, he, hself⟩, ?_, by rw [f7]; exact hne, fun hx => hst (e.2.2.2.2.2.2.1.1 hx)⟩, ?_⟩
      · intro p
        simp only [State.pick]
        split
        · exact ho p
        · rename_i i d hs
          have hdc : d ≠ c := by rintro rfl; exact ho _ (search_some hs).2.2.1
          by_cases hp : p = i
          · simp [hp, ho, Ne.symm hdc]
          · simp [set_apply, hp, ho]
      · simp only [List.mem_singleton, Ev.pick.injEq]
        exact fun hx => hne hx.symm
    · simp at hs
  | takeAll =>
    simp only [step] at hs
    split at hs
    · simp only [Option.some.injEq, Prod.mk.injEq] at hs
      obtain ⟨rfl, rfl⟩ := hs
      have hnm : c ∉ s.movable := by
        intro hx
        simp only [State.movable, List.mem_flatMap, List.mem_filter] at hx
        obtain ⟨i, _, h1, _⟩ := hx
        exact ho i h1
      refine ⟨⟨by simp [State.takeAll, hm, hnm], ⟨g, hg, he, hself⟩, ?_, hc, hst⟩, by simp⟩
      intro p
      simp only [State.takeAll]
      split
      · exact fun hx => ho p (List.mem_filter.1 hx).1
      · exact ho p
    · simp at hs
  | takeOne =>
    simp only [step] at hs
    split at hs
    · split at hs
      · rename_i i d hf
        simp only [Option.some.injEq, Prod.mk.injEq] at hs
        obtain ⟨rfl, rfl⟩ := hs
        have hdc : d ≠ c := by rintro rfl; exact ho _ (firstMovable_some hf).2.1
        refine ⟨⟨by simpa [set_apply, Ne.symm hdc] using hm, ⟨g, hg, he, hself⟩, ?_, hc, hst⟩, by simp⟩
        intro p
        by_cases hp : p = i
        · simp [hp, ho]
        · simp [set_apply, hp, ho]
      · simp only [Option.some.injEq, Prod.mk.injEq] at hs
        obtain ⟨rfl, rfl⟩ := hs
        exact ⟨⟨hm, ⟨g, hg, he, hself⟩, ho, hc, hst⟩, by simp⟩
    · simp at hs

theorem lost_pick {c : Nat} {g : Chg} {s : State} (h : Inv s) (hg : s.chg c = some g) (he : g.erased = true) (hself : g.self = true) :
    Lost c s.pick.1 ∧ s.pick.2 ≠ some c := by
  have her : s.erased c = true := by simp [State.erased, hg, he]
  have hm := (h.eras c her).1
  have ho : ∀ p, c ∉ s.lists p := fun p hx => by have := (h.mem_list.1 hx).2.1; rw [her] at this; simp at this
  have hst : (s.ctx c).st ≠ .finished := by
    rcases h.chg c g hg hm with h1 | h1
    · rw [hself] at h1; simp at h1
    · exact h1.2
  obtain ⟨f1, f2, f3, f4, f5, f6, f7⟩ := pick_fields s
  have e := pick_ctx (s := s) c
  have hne : s.pick.2 ≠ some c := by
    simp only [State.pick]
    split
    · simp
    · rename_i i d hs
      obtain ⟨_, _, h3, _⟩ := search_some hs
      simp only [ne_eq, Option.some.injEq]
      rintro rfl
      exact ho _ h3
  refine ⟨⟨by rw [f1]; exact hm, ⟨g, by rw [f4]; exact hg, he, hself⟩, ?_, by rw [f7]; exact hne, fun hx => hst (e.2.2.2.2.2.2.1.1 hx)⟩, hne⟩
  intro p
  simp only [State.pick]
  split
  · exact ho p
  · rename_i i d hs
    have hdc : d ≠ c := by rintro rfl; exact ho _ (search_some hs).2.2.1
    by_cases hp : p = i
    · simp [hp, ho, Ne.symm hdc]
    · simp [set_apply, hp, ho]

theorem lost_runs {c : Nat} : ∀ (bs : List Act) (s s' : State) (fs : List Ev), Lost c s → runs (step true) s bs = some (s', fs) →
    Lost c s' ∧ Ev.pick (some c) ∉ fs
  | [], s, s', fs, h, hr => by
    simp only [runs, Option.some.injEq, Prod.mk.injEq] at hr
    obtain ⟨rfl, rfl⟩ := hr
    exact ⟨h, by simp⟩
  | b :: bs, s, s', fs, h, hr => by
    obtain ⟨u, g1, g2, k1, k2, rfl⟩ := runs_cons hr
    have h1 := lost_step h k1
    have h2 := lost_runs bs u s' g2 h1.1 k2
    exact ⟨h2.1, by simp [h1.2, h2.2]⟩

/-- **C46 and C43, the missing part is false**: `set_priority` of the running coroutine (also the one inside `wait`) does not disable
preemption. If the signal arrives in `handle_priority_changed` between `erase` and `push_back` and the scheduler picks, then whatever
happened before and whatever happens afterwards, the coroutine stays counted, is in no list, and is never picked again. -/
theorem C46_preempted_priority_change_loses_coroutine {as bs : List Act} {s s' : State} {es fs : List Ev} {c : Nat} {g : Chg}
    (h : runs (step false) State.init as = some (s, es)) (hg : s.chg c = some g) (hself : g.self = true) (he : g.erased = true)
    (hr : runs (step true) s (.pick :: bs) = some (s', fs)) :
    Ev.pick (some c) ∉ fs ∧ s'.mem c = true ∧ (s'.ctx c).st ≠ .finished ∧ ∀ p, c ∉ s'.lists p := by
  have hI := (agree_runs h).1
  obtain ⟨u, g1, g2, k1, k2, rfl⟩ := runs_cons hr
  simp only [step, State.muFree, Bool.or_true, if_true, Option.some.injEq, Prod.mk.injEq] at k1
  obtain ⟨rfl, rfl⟩ := k1
  have h1 := lost_pick hI hg he hself
  have h2 := lost_runs bs _ s' g2 h1.1 k2
  refine ⟨?_, h2.1.mem, h2.1.st, h2.1.out⟩
  simp only [List.cons_append, List.nil_append, List.mem_cons, Ev.pick.injEq, not_or]
  exact ⟨fun hx => h1.2 hx.symm, h2.2⟩

/-- The situation arises: 1 and 2 have priority 5; 1 sets its priority to 0 and is interrupted; 2 is picked and finishes; then the
thread idles although 1 (best priority, no outstanding wait, not finished) is there and counted. -/
theorem C46_witness :
    (runs (step false) State.init (addAll 1 5 ++ addAll 2 5 ++ [.pick, .setPrio 1 0 true, .erase 1])).map (fun p => p.1.chg 1)
      = some (some ⟨5, true, true⟩) ∧
    (runs (step true) State.init (addAll 1 5 ++ addAll 2 5 ++
      [.pick, .setPrio 1 0 true, .erase 1, .pick, .finish 2, .pick, .pick])).map (fun p => (p.2.drop 6, p.1.count, (p.1.ctx 1).waiting))
      = some ([.pick (some 1), .setPrio 1 0, .prioBegin 1, .pick (some 2), .finish 2, .pick none, .pick none], 2, false) := by
  constructor <;> decide

/-! ## C55 -/

/-- Proof device. -/
theorem take_only {pre : Bool} {s1 s2 : State} {a : Act} {p q cs} (h : step pre s1 a = some (s2, p ++ Ev.take cs :: q)) :
    p = [] ∧ q = [] ∧ ((a = .takeAll ∧ cs = s1.movable ∧ s2 = s1.takeAll) ∨
      (a = .takeOne ∧ ((∃ i c, s1.firstMovable = some (i, c) ∧ cs = [c]) ∨ cs = []))) := by
  have key : ∀ l : List Ev, l = p ++ .take cs :: q → Ev.take cs ∈ l := by rintro l rfl; simp
  have one : ∀ e : Ev, [e] = p ++ .take cs :: q → p = [] ∧ q = [] ∧ e = .take cs := by
    intro e h
    have hl := congrArg List.length h
    simp only [List.length_cons, List.length_nil, List.length_append] at hl
    have hp : p = [] := List.eq_nil_of_length_eq_zero (by omega)
    have hq : q = [] := List.eq_nil_of_length_eq_zero (by omega)
    subst hp; subst hq
    simpa using h
  cases a with
  | takeAll =>
    simp only [step] at h
    split at h
    · simp only [Option.some.injEq, Prod.mk.injEq] at h
      obtain ⟨rfl, h⟩ := h
      obtain ⟨rfl, rfl, h'⟩ := one _ h
      have h' := Ev.take.inj h'
      exact ⟨rfl, rfl, .inl ⟨rfl, h'.symm, rfl⟩⟩
    · simp at h
  | takeOne =>
    simp only [step] at h
    split at h
    · split at h
      · rename_i i c hf
        simp only [Option.some.injEq, Prod.mk.injEq] at h
        obtain ⟨_, h⟩ := h
        obtain ⟨rfl, rfl, h'⟩ := one _ h
        have h' := Ev.take.inj h'
        exact ⟨rfl, rfl, .inr ⟨rfl, .inl ⟨i, c, hf, h'.symm⟩⟩⟩
      · simp only [Option.some.injEq, Prod.mk.injEq] at h
        obtain ⟨_, h⟩ := h
        obtain ⟨rfl, rfl, h'⟩ := one _ h
        have h' := Ev.take.inj h'
        exact ⟨rfl, rfl, .inr ⟨rfl, .inr h'.symm⟩⟩
    · simp at h
  | wake c ph =>
    simp only [step] at h
    split at h
    · cases ph <;> simp only at h <;> repeat' split at h
      all_goals simp only [Option.some.injEq, Prod.mk.injEq] at h
      all_goals (have := key _ h.2; simp at this)
    · simp at h
  | _ =>
    simp only [step] at h
    repeat' split at h
    all_goals first
      | (simp only [Option.some.injEq, Prod.mk.injEq] at h; have := key _ h.2; simp at this)
      | simp at h

/-- **C55, one env**: what is taken for migration are coroutines of the env, each once, none bound or on a shared stack, none
finished and not the one that was picked last (the running one). -/
theorem C55_only_movable_taken {as : List Act} {s : State} {pre post : List Ev} {cs : List Nat}
    (h : runs (step false) State.init as = some (s, pre ++ .take cs :: post)) :
    cs.Nodup ∧ ∀ c ∈ cs, (view pre).mem c = true ∧ (view pre).pinned c = false ∧ (view pre).fin c = false ∧ (view pre).last ≠ some c := by
  obtain ⟨as1, a, as2, s1, s2, p1, p2, q1, q2, rfl, h1, h2, h3, rfl, rfl⟩ := runs_split as _ _ pre _ post h
  obtain ⟨rfl, rfl, hcs⟩ := take_only h2
  obtain ⟨hI, hA⟩ := agree_runs h1
  simp only [List.append_nil]
  have key : ∀ c, s1.mem c = true → (s1.ctx c).canMove = true →
      (view p1).mem c = true ∧ (view p1).pinned c = false ∧ (view p1).fin c = false ∧ (view p1).last ≠ some c := by
    intro c hm hc
    simp only [Ctx.canMove, Bool.not_eq_true', Bool.or_eq_false_iff, beq_eq_false_iff_ne] at hc
    rw [hA.mem, hA.pinned c hm, hA.fin c hm, hA.last]
    refine ⟨hm, by simp [hc.2, hc.1.2], by simpa using hc.1.1.2, ?_⟩
    intro hcu
    have := (hI.curr c hcu).2
    cases hst : (s1.ctx c).st <;> simp_all
  rcases hcs with ⟨_, rfl, _⟩ | ⟨_, ⟨i, c, hf, rfl⟩ | rfl⟩
  · exact ⟨movable_nodup hI, fun c hc => by have := (mem_movable hI).1 hc; exact key c this.1 this.2.2.1⟩
  · have := firstMovable_some hf
    refine ⟨by simp, ?_⟩
    intro d hd
    simp only [List.mem_singleton] at hd
    subst hd
    exact key d (hI.mem_list.1 this.2.1).1 this.2.2
  · simp

/-- **C55, nothing lost or duplicated on one side**: after taking `cs`, the lists of the env hold exactly what they held before
without `cs`, in the same order. -/
theorem C55_rest_untouched {as : List Act} {s s' : State} {es : List Ev} {a : Act} {cs : List Nat}
    (h : runs (step false) State.init as = some (s, es)) (hs : step false s a = some (s', [.take cs])) (p : Nat) :
    s'.lists p = (s.lists p).filter (fun c => !decide (c ∈ cs)) ∧ s'.count + cs.length = s.count := by
  obtain ⟨hI, hA⟩ := agree_runs h
  have hlen : ∀ l : List Nat, l.Nodup → (∀ c ∈ l, s.mem c = true) → l.length ≤ s.count := by
    intro l hl hm
    obtain ⟨m, h1, h2, h3⟩ := hI.num
    have := num_diff h1 hl (fun c hc => (h2 c).2 (hm c hc))
    have h4 := filter_add m fun c => decide (c ∈ l)
    have h5 : (m.filter fun c => decide (c ∈ l)).length = l.length := by
      apply List.Perm.length_eq
      rw [List.perm_ext_iff_of_nodup (h1.filter _) hl]
      intro c
      simp only [List.mem_filter, decide_eq_true_eq]
      exact ⟨fun h => h.2, fun h => ⟨(h2 c).2 (hm c h), h⟩⟩
    omega
  cases a with
  | takeAll =>
    simp only [step] at hs
    split at hs
    · simp only [Option.some.injEq, Prod.mk.injEq, List.cons.injEq, Ev.take.injEq, and_true] at hs
      obtain ⟨rfl, rfl⟩ := hs
      have := hlen s.movable (movable_nodup hI) fun c hc => ((mem_movable hI).1 hc).1
      refine ⟨?_, by simp only [State.takeAll]; omega⟩
      simp only [State.takeAll]
      split
      · rename_i hr
        apply List.filter_congr
        intro c hc
        have hm := hI.mem_list.1 hc
        have := mem_movable hI (c := c)
        cases hcm : (s.ctx c).canMove with
        | false => simp [this, hcm]
        | true => simp [this, hcm, hm.1, hm.2.1, ← hm.2.2, hr.1]
      · rename_i hr
        rw [List.filter_eq_self.2]
        intro c hc
        have hm := hI.mem_list.1 hc
        have hlt := (hI.lt c hm.1).2
        rw [← hm.2.2] at hlt
        simp only [maxPriority] at hr
        simp only [Bool.not_eq_true', decide_eq_false_iff_not, mem_movable hI]
        rintro ⟨_, _, _, h4⟩
        rw [← hm.2.2] at h4
        omega
    · simp at hs
  | takeOne =>
    simp only [step] at hs
    split at hs
    · split at hs
      · rename_i i c hf
        simp only [Option.some.injEq, Prod.mk.injEq, List.cons.injEq, Ev.take.injEq, and_true] at hs
        obtain ⟨rfl, rfl⟩ := hs
        have hf' := firstMovable_some hf
        have hm := hI.mem_list.1 hf'.2.1
        have := hlen [c] (by simp) (by simp [hm.1])
        simp only [List.length_singleton] at this ⊢
        refine ⟨?_, by omega⟩
        by_cases hp : p = i
        · subst hp; simp
        · simp only [set_apply, hp, if_false]
          rw [List.filter_eq_self.2]
          intro d hd
          have hm' := hI.mem_list.1 hd
          simp only [List.mem_singleton, Bool.not_eq_true', decide_eq_false_iff_not]
          rintro rfl
          exact hp (hm'.2.2.trans hm.2.2.symm)
      · simp only [Option.some.injEq, Prod.mk.injEq, List.cons.injEq, Ev.take.injEq, and_true] at hs
        obtain ⟨rfl, rfl⟩ := hs
        refine ⟨?_, by simp⟩
        rw [List.filter_eq_self.2]
        simp
    · simp at hs
  | wake c ph =>
    simp only [step] at hs
    split at hs
    · cases ph <;> simp only at hs <;> repeat' split at hs
      all_goals simp at hs
    · simp at hs
  | _ =>
    simp only [step] at hs
    repeat' split at hs
    all_goals simp at hs

/-- Non-trivial case: 1 runs, 2 is bound, 3 and 4 are taken. -/
example : (runs (step false) State.init (addAll 1 5 ++ [.add 2 { ready 5 with bind := true }] ++ addAll 3 7 ++ addAll 4 5 ++
      [.pick, .takeAll])).map (fun p => (p.2.getLast?, p.1.lists 5, p.1.lists 7, p.1.count))
    = some (some (.take [4, 3]), [2, 1], [], 2) := by decide

/-! ## C44 -/

theorem pair_first {l : List Nat} {f : Nat → Bool} {c d : Nat} {l1 l2 : List Nat} (hn : l.Nodup) (hp : [c, d].Sublist l) (hc : f c = true)
    (hl : l = l1 ++ d :: l2) (h1 : ∀ x ∈ l1, f x = false) : False := by
  subst hl
  obtain ⟨m1, m2, hm, hs1, hs2⟩ := List.sublist_append_iff.1 hp
  have hnc : c ∉ l1 := fun hx => by have := h1 c hx; rw [hc] at this; simp at this
  cases m1 with
  | cons x m1 =>
    simp only [List.cons_append, List.cons.injEq] at hm
    have := hs1.subset (List.mem_cons_self)
    rw [← hm.1] at this
    exact hnc this
  | nil =>
    simp only [List.nil_append] at hm
    rw [← hm] at hs2
    have hd : d ∉ l2 := by
      have := (List.nodup_append.1 hn).2.1
      exact (List.nodup_cons.1 this).1
    cases hs2 with
    | cons _ h => exact hd (h.subset (by simp))
    | cons_cons _ h => exact hd (h.subset (by simp))

/-- Proof device for the rotation: between two runs of `c`, with `d` picked `n` times so far. (Concerns co_env.cpp:32-621, co_ctx.cpp:77-207.) -/
structure Rot (c d p n : Nat) (s : State) : Prop where
  inv : Inv s
  chgc : s.chg c = none
  chgd : s.chg d = none
  pc : (s.ctx c).prio = p
  pd : (s.ctx d).prio = p
  ord : (n = 0 ∧ [d, c].Sublist (s.lists p)) ∨ (n = 1 ∧ [c, d].Sublist (s.lists p))

/-- Proof device: the events of interest. (Concerns co_env.cpp:32-621, co_ctx.cpp:77-207.) -/
def bad (c d : Nat) : Ev → Bool
  | .setPrio e _ => e == c || e == d
  | .pick (some e) => e == c
  | _ => false

theorem pair_filter {l : List Nat} {f : Nat → Bool} {c d : Nat} (h : [c, d].Sublist l) (hc : f c = true) (hd : f d = true) :
    [c, d].Sublist (l.filter f) := by
  have := h.filter f
  simpa [List.filter_cons, hc, hd] using this

theorem pair_erase {l : List Nat} {c d e : Nat} (h : [c, d].Sublist l) (hc : e ≠ c) (hd : e ≠ d) : [c, d].Sublist (l.erase e) := by
  have := h.erase e
  simpa [List.erase_cons, Ne.symm hc, Ne.symm hd] using this

theorem rot_ord {c d n : Nat} {l l' : List Nat} (h : (n = 0 ∧ [d, c].Sublist l) ∨ (n = 1 ∧ [c, d].Sublist l))
    (hh : ∀ x y, (x = c ∧ y = d) ∨ (x = d ∧ y = c) → [x, y].Sublist l → [x, y].Sublist l') :
    (n = 0 ∧ [d, c].Sublist l') ∨ (n = 1 ∧ [c, d].Sublist l') := by
  rcases h with ⟨h1, h2⟩ | ⟨h1, h2⟩
  · exact .inl ⟨h1, hh d c (.inr ⟨rfl, rfl⟩) h2⟩
  · exact .inr ⟨h1, hh c d (.inl ⟨rfl, rfl⟩) h2⟩

theorem rot_step {c d p n : Nat} {s s' : State} {a : Act} {es : List Ev} (hcd : c ≠ d) (h : Rot c d p n s)
    (hs : step false s a = some (s', es)) (hb : ∀ e ∈ es, bad c d e = false) (hc : (s.ctx c).canSchedule = true)
    (hd : (s.ctx d).canSchedule = true) (hmc : s.mem c = true) (hmd : s.mem d = true) (hmc' : s'.mem c = true)
    (hmd' : s'.mem d = true) : Rot c d p (n + es.count (.pick (some d))) s' := by
  obtain ⟨hI, gc, gd, pc, pd, ho⟩ := h
  have hI' := inv_step hI hs
  cases a with
  | add e v =>
    simp only [step] at hs
    split at hs
    · rename_i he
      simp only [Option.some.injEq, Prod.mk.injEq] at hs
      obtain ⟨rfl, rfl⟩ := hs
      have h1 : c ≠ e := by rintro rfl; simp [hmc] at he
      have h2 : d ≠ e := by rintro rfl; simp [hmd] at he
      refine ⟨hI', gc, gd, by simpa [set_apply, h1] using pc, by simpa [set_apply, h2] using pd, ?_⟩
      have : List.count (Ev.pick (some d)) [.add e v.prio v.res (v.bind || v.shared), .wakeBegin e] = 0 :=
        List.count_eq_zero_of_not_mem (by simp)
      rw [this]
      refine rot_ord ho ?_
      intro x y _ hxy
      by_cases hp : p = v.prio
      · subst hp; simp only [set_same]; exact List.sublist_append_of_sublist_left hxy
      · simpa [set_apply, hp] using hxy
    · simp at hs
  | enter e r =>
    simp only [step] at hs
    split at hs
    · simp only [Option.some.injEq, Prod.mk.injEq] at hs
      obtain ⟨rfl, rfl⟩ := hs
      rw [List.count_eq_zero_of_not_mem (by simp)]
      refine ⟨hI', gc, gd, ?_, ?_, ho⟩
      · by_cases h1 : c = e
        · subst h1; simpa [Ctx.enter] using pc
        · simpa [set_apply, h1] using pc
      · by_cases h1 : d = e
        · subst h1; simpa [Ctx.enter] using pd
        · simpa [set_apply, h1] using pd
    · simp at hs
  | leave e r =>
    simp only [step] at hs
    split at hs
    · simp only [Option.some.injEq, Prod.mk.injEq] at hs
      obtain ⟨rfl, rfl⟩ := hs
      rw [List.count_eq_zero_of_not_mem (by simp)]
      refine ⟨hI', gc, gd, ?_, ?_, ho⟩
      · by_cases h1 : c = e
        · subst h1; simpa [Ctx.leave] using pc
        · simpa [set_apply, h1] using pc
      · by_cases h1 : d = e
        · subst h1; simpa [Ctx.leave] using pd
        · simpa [set_apply, h1] using pd
    · simp at hs
  | wake e ph =>
    simp only [step] at hs
    split at hs
    · cases ph <;> simp only at hs <;> repeat' split at hs
      all_goals (simp only [Option.some.injEq, Prod.mk.injEq] at hs; obtain ⟨rfl, rfl⟩ := hs)
      all_goals (rw [List.count_eq_zero_of_not_mem (by simp)]; exact ⟨hI', gc, gd, pc, pd, ho⟩)
    · simp at hs
  | setPrio e v self =>
    simp only [step] at hs
    split at hs
    · have hne : c ≠ e ∧ d ≠ e := by
        split at hs
        · simp only [Option.some.injEq, Prod.mk.injEq] at hs
          have := hb (.setPrio e v) (by rw [← hs.2]; simp)
          simp only [bad, Bool.or_eq_false_iff, beq_eq_false_iff_ne] at this
          exact ⟨Ne.symm this.1, Ne.symm this.2⟩
        · simp only [Option.some.injEq, Prod.mk.injEq] at hs
          have := hb (.setPrio e v) (by rw [← hs.2]; simp)
          simp only [bad, Bool.or_eq_false_iff, beq_eq_false_iff_ne] at this
          exact ⟨Ne.symm this.1, Ne.symm this.2⟩
      split at hs
      · simp only [Option.some.injEq, Prod.mk.injEq] at hs
        obtain ⟨rfl, rfl⟩ := hs
        rw [List.count_eq_zero_of_not_mem (by simp)]
        exact ⟨hI', gc, gd, by simpa [set_apply, hne.1] using pc, by simpa [set_apply, hne.2] using pd, ho⟩
      · simp only [Option.some.injEq, Prod.mk.injEq] at hs
        obtain ⟨rfl, rfl⟩ := hs
        rw [List.count_eq_zero_of_not_mem (by simp)]
        exact ⟨hI', by simpa [set_apply, hne.1] using gc, by simpa [set_apply, hne.2] using gd,
          by simpa [set_apply, hne.1] using pc, by simpa [set_apply, hne.2] using pd, ho⟩
    · simp at hs
  | erase e =>
    simp only [step] at hs
    split at hs
    · rename_i g hg
      have h1 : c ≠ e := by rintro rfl; rw [gc] at hg; simp at hg
      have h2 : d ≠ e := by rintro rfl; rw [gd] at hg; simp at hg
      split at hs
      · split at hs
        · simp only [Option.some.injEq, Prod.mk.injEq] at hs
          obtain ⟨rfl, rfl⟩ := hs
          refine ⟨hI', by simpa [set_apply, h1] using gc, by simpa [set_apply, h2] using gd, pc, pd, ?_⟩
          refine rot_ord ho ?_
          intro x y hx hxy
          by_cases hp : p = g.old
          · subst hp
            simp only [set_same]
            refine pair_erase hxy ?_ ?_ <;> rcases hx with ⟨rfl, rfl⟩ | ⟨rfl, rfl⟩ <;> first | exact Ne.symm h1 | exact Ne.symm h2
          · simpa [set_apply, hp] using hxy
        · simp only [Option.some.injEq, Prod.mk.injEq] at hs
          obtain ⟨rfl, rfl⟩ := hs
          rw [List.count_eq_zero_of_not_mem (by simp)]
          exact ⟨hI', by simpa [set_apply, h1] using gc, by simpa [set_apply, h2] using gd, pc, pd, ho⟩
      · simp at hs
    · simp at hs
  | push e =>
    simp only [step] at hs
    split at hs
    · rename_i g hg
      have h1 : c ≠ e := by rintro rfl; rw [gc] at hg; simp at hg
      have h2 : d ≠ e := by rintro rfl; rw [gd] at hg; simp at hg
      split at hs
      · simp only [Option.some.injEq, Prod.mk.injEq] at hs
        obtain ⟨rfl, rfl⟩ := hs
        rw [List.count_eq_zero_of_not_mem (by simp)]
        refine ⟨hI', by simpa [State.updMin, set_apply, h1] using gc, by simpa [State.updMin, set_apply, h2] using gd, pc, pd, ?_⟩
        refine rot_ord ho ?_
        intro x y hx hxy
        simp only [State.updMin]
        by_cases hp : p = (s.ctx e).prio
        · subst hp; simp only [set_same]; exact List.sublist_append_of_sublist_left hxy
        · simpa [set_apply, hp] using hxy
      · simp at hs
    · simp at hs
  | finish e =>
    simp only [step] at hs
    split at hs
    · simp only [Option.some.injEq, Prod.mk.injEq] at hs
      obtain ⟨rfl, rfl⟩ := hs
      rw [List.count_eq_zero_of_not_mem (by simp)]
      refine ⟨hI', gc, gd, ?_, ?_, ho⟩
      · by_cases h1 : c = e
        · subst h1; simpa using pc
        · simpa [set_apply, h1] using pc
      · by_cases h1 : d = e
        · subst h1; simpa using pd
        · simpa [set_apply, h1] using pd
    · simp at hs
  | unlock e =>
    simp only [step] at hs
    split at hs
    · simp only [Option.some.injEq, Prod.mk.injEq] at hs
      obtain ⟨rfl, rfl⟩ := hs
      refine ⟨hI', gc, gd, ?_, ?_, ho⟩
      · by_cases h1 : c = e
        · subst h1; simpa using pc
        · simpa [set_apply, h1] using pc
      · by_cases h1 : d = e
        · subst h1; simpa using pd
        · simpa [set_apply, h1] using pd
    · simp at hs
  | remove e =>
    simp only [step] at hs
    split at hs
    · simp only [Option.some.injEq, Prod.mk.injEq] at hs
      obtain ⟨rfl, rfl⟩ := hs
      have h1 : c ≠ e := by rintro rfl; simp at hmc'
      have h2 : d ≠ e := by rintro rfl; simp at hmd'
      rw [List.count_eq_zero_of_not_mem (by simp)]
      refine ⟨hI', gc, gd, pc, pd, rot_ord ho ?_⟩
      intro x y hx hxy
      by_cases hp : p = (s.ctx e).prio
      · subst hp
        simp only [set_same]
        refine pair_filter hxy ?_ ?_ <;> rcases hx with ⟨rfl, rfl⟩ | ⟨rfl, rfl⟩ <;> simp [h1, h2]
      · simpa [set_apply, hp] using hxy
    · simp at hs
  | pick =>
    simp only [step] at hs
    split at hs
    · simp only [Option.some.injEq, Prod.mk.injEq] at hs
      obtain ⟨rfl, rfl⟩ := hs
      obtain ⟨f1, f2, f3, f4, f5, f6, f7⟩ := pick_fields s
      have ec := pick_ctx (s := s) c
      have ed := pick_ctx (s := s) d
      refine ⟨hI', by rw [f4]; exact gc, by rw [f4]; exact gd, by rw [ec.1]; exact pc, by rw [ed.1]; exact pd, ?_⟩
      cases hse : s.search with
      | none => simpa [State.pick, hse] using ho
      | some r =>
        obtain ⟨i, e⟩ := r
        obtain ⟨_, _, h3, h4, ⟨l1, l2, h5, h6⟩, _⟩ := search_some hse
        have hpe : s.pick.2 = some e := by simp [State.pick, hse]
        have hle : s.pick.1.lists p = set s.lists i ((s.lists i).filter (· ≠ e) ++ [e]) p := by simp [State.pick, hse]
        have hec : e ≠ c := by
          have := hb (.pick s.pick.2) (by simp)
          rw [hpe] at this
          simpa [bad] using this
        rw [hpe, hle]
        by_cases hed : e = d
        · subst hed
          have hpi : i = p := by
            have := (hI.mem_list.1 h3).2.2
            rw [lp_none gd, pd] at this
            exact this
          subst hpi
          simp only [set_same, List.count_singleton_self]
          rcases ho with ⟨rfl, ho⟩ | ⟨rfl, ho⟩
          · right
            refine ⟨rfl, ?_⟩
            have hcin : c ∈ (s.lists i).filter (· ≠ e) := by
              rw [List.mem_filter]
              exact ⟨ho.subset (by simp), by simpa using hcd⟩
            have := List.Sublist.append (List.singleton_sublist.2 hcin) (List.Sublist.refl [e])
            simpa using this
          · exact (pair_first (f := fun x => (s.ctx x).canSchedule) (list_nodup hI i) ho hc h5 h6).elim
        · have hz : List.count (Ev.pick (some d)) [Ev.pick (some e)] = 0 :=
            List.count_eq_zero_of_not_mem (by simpa using Ne.symm hed)
          rw [hz]
          refine rot_ord ho ?_
          intro x y hx hxy
          by_cases hp : p = i
          · subst hp
            simp only [set_same]
            refine List.sublist_append_of_sublist_left (pair_filter hxy ?_ ?_) <;>
              rcases hx with ⟨rfl, rfl⟩ | ⟨rfl, rfl⟩ <;> simp [Ne.symm hec, Ne.symm hed]
          · simpa [set_apply, hp] using hxy
    · simp at hs
  | takeAll =>
    simp only [step] at hs
    split at hs
    · simp only [Option.some.injEq, Prod.mk.injEq] at hs
      obtain ⟨rfl, rfl⟩ := hs
      rw [List.count_eq_zero_of_not_mem (by simp)]
      refine ⟨hI', gc, gd, pc, pd, rot_ord ho ?_⟩
      have hnm : ∀ x, s.takeAll.mem x = true → x ∉ s.movable := by
        intro x hx
        simp only [State.takeAll, Bool.and_eq_true, Bool.not_eq_true', decide_eq_false_iff_not] at hx
        exact hx.2
      intro x y hx hxy
      simp only [State.takeAll]
      split
      · rename_i hr
        have key : ∀ z, z ∈ s.lists p → s.takeAll.mem z = true → (!(s.ctx z).canMove) = true := by
          intro z hz hzm
          have hm := hI.mem_list.1 hz
          have := hnm z hzm
          rw [mem_movable hI] at this
          cases hcm : (s.ctx z).canMove with
          | false => rfl
          | true => exact absurd ⟨hm.1, hm.2.1, hcm, by rw [← hm.2.2]; exact hr.1⟩ this
        have hx1 := hxy.subset (List.mem_cons_self)
        have hy1 := hxy.subset (show y ∈ [x, y] by simp)
        refine pair_filter hxy (key _ hx1 ?_) (key _ hy1 ?_) <;> rcases hx with ⟨rfl, rfl⟩ | ⟨rfl, rfl⟩ <;> assumption
      · exact hxy
    · simp at hs
  | takeOne =>
    simp only [step] at hs
    split at hs
    · split at hs
      · rename_i i e hf
        simp only [Option.some.injEq, Prod.mk.injEq] at hs
        obtain ⟨rfl, rfl⟩ := hs
        have h1 : c ≠ e := by rintro rfl; simp at hmc'
        have h2 : d ≠ e := by rintro rfl; simp at hmd'
        rw [List.count_eq_zero_of_not_mem (by simp)]
        refine ⟨hI', gc, gd, pc, pd, rot_ord ho ?_⟩
        intro x y hx hxy
        by_cases hp : p = i
        · subst hp
          simp only [set_same]
          refine pair_filter hxy ?_ ?_ <;> rcases hx with ⟨rfl, rfl⟩ | ⟨rfl, rfl⟩ <;> simp [h1, h2]
        · simpa [set_apply, hp] using hxy
      · simp only [Option.some.injEq, Prod.mk.injEq] at hs
        obtain ⟨rfl, rfl⟩ := hs
        rw [List.count_eq_zero_of_not_mem (by simp)]
        exact ⟨hI', gc, gd, pc, pd, ho⟩
    · simp at hs

theorem rot_runs {c d p : Nat} (hcd : c ≠ d) : ∀ (as : List Act) (s s' : State) (tr es : List Ev) (n : Nat), Rot c d p n s →
    Agree s (view tr) → runs (step false) s as = some (s', es) → (∀ e ∈ es, bad c d e = false) →
    (∀ m1 m2, es = m1 ++ m2 → (view (tr ++ m1)).runnable c ∧ (view (tr ++ m1)).runnable d) →
    Rot c d p (n + es.count (.pick (some d))) s' ∧ Agree s' (view (tr ++ es))
  | [], s, s', tr, es, n, h, hA, hr, _, _ => by
    simp only [runs, Option.some.injEq, Prod.mk.injEq] at hr
    obtain ⟨rfl, rfl⟩ := hr
    simpa using ⟨h, hA⟩
  | a :: as, s, s', tr, es, n, h, hA, hr, hb, hrun => by
    obtain ⟨u, g1, g2, k1, k2, rfl⟩ := runs_cons hr
    have hA' : Agree u (view (tr ++ g1)) := by rw [view_append]; exact agree_step h.inv hA k1
    have hI' := inv_step h.inv k1
    have r0 := hrun [] (g1 ++ g2) rfl
    have r1 := hrun g1 g2 rfl
    simp only [List.append_nil] at r0
    rw [runnable_iff h.inv hA, runnable_iff h.inv hA] at r0
    rw [runnable_iff hI' hA', runnable_iff hI' hA'] at r1
    have h1 := rot_step hcd h k1 (fun e he => hb e (by simp [he])) r0.1.2 r0.2.2 r0.1.1 r0.2.1 r1.1.1 r1.2.1
    have h2 := rot_runs hcd as u s' (tr ++ g1) g2 _ h1 hA' k2 (fun e he => hb e (by simp [he])) (by
      intro m1 m2 hm
      have := hrun (g1 ++ m1) m2 (by rw [hm, List.append_assoc])
      simpa [List.append_assoc] using this)
    rw [List.count_append, ← Nat.add_assoc, ← List.append_assoc]
    exact h2

/-- **C44**: let `c` be picked twice, with `mid` in between and not picked in `mid`. A coroutine `d` that had the same priority, with
neither `c`'s nor `d`'s priority being set in between (or being changed at the start), is picked exactly once in `mid`, if both stay
runnable throughout. (Nothing need be assumed about the other coroutines.) -/
theorem C44_round_robin {as : List Act} {s : State} {pre mid post : List Ev} {c d : Nat} (hcd : c ≠ d)
    (h : runs (step false) State.init as = some (s, pre ++ .pick (some c) :: (mid ++ .pick (some c) :: post)))
    (hmid : Ev.pick (some c) ∉ mid) (hset : ∀ v, Ev.setPrio c v ∉ mid ∧ Ev.setPrio d v ∉ mid)
    (hprio : (view pre).prio c = (view pre).prio d) (hop : (view pre).prioOp c = 0 ∧ (view pre).prioOp d = 0)
    (hrun : ∀ m1 m2, mid = m1 ++ m2 → (view (pre ++ .pick (some c) :: m1)).runnable c ∧ (view (pre ++ .pick (some c) :: m1)).runnable d) :
    mid.count (.pick (some d)) = 1 := by
  obtain ⟨s1, as1, as2, h1, h2, h3, hmu, hI, hA⟩ := pick_split h
  obtain ⟨bs1, b, bs2, t1, t2, p1, p2, q1, q2, rfl, k1, k2, k3, rfl, rfl⟩ := runs_split as2 _ _ mid _ post h3
  obtain ⟨rfl, rfl, rfl, rfl, k4, _⟩ := pick_only k2
  simp only [List.append_nil] at *
  obtain ⟨f1, f2, f3, f4, f5, f6, f7⟩ := pick_fields s1
  have hI1 := inv_pick hI
  have hA1 : Agree s1.pick.1 (view (pre ++ [.pick (some c)])) := by
    have := agree_step (a := .pick) (s' := s1.pick.1) (es := [.pick (some c)]) hI hA (by simp [step, State.muFree, hmu, h2])
    rw [view_append]; exact this
  have r0 := hrun [] p1 rfl
  rw [runnable_iff hI1 hA1, runnable_iff hI1 hA1] at r0
  have gc : s1.chg c = none := by
    cases hg : s1.chg c with
    | none => rfl
    | some g => have := hop.1; rw [hA.prioOp, hg] at this; simp at this
  have gd : s1.chg d = none := by
    cases hg : s1.chg d with
    | none => rfl
    | some g => have := hop.2; rw [hA.prioOp, hg] at this; simp at this
  have mc : s1.mem c = true := by rw [← f1]; exact r0.1.1
  have md : s1.mem d = true := by rw [← f1]; exact r0.2.1
  rw [hA.prio c mc, hA.prio d md] at hprio
  have hrot : Rot c d (s1.ctx c).prio 0 s1.pick.1 := by
    refine ⟨hI1, by rw [f4]; exact gc, by rw [f4]; exact gd, (pick_ctx c).1, by rw [(pick_ctx d).1, hprio], .inl ⟨rfl, ?_⟩⟩
    have hd : d ∈ s1.lists (s1.ctx c).prio := hI.mem_list.2 ⟨md, erased_none gd, by rw [lp_none gd, hprio]⟩
    cases hse : s1.search with
    | none => simp [State.pick, hse] at h2
    | some r =>
      obtain ⟨i, e⟩ := r
      simp only [State.pick, hse, Option.some.injEq] at h2
      subst h2
      have hpi : i = (s1.ctx c).prio := by
        have := (hI.mem_list.1 (search_some hse).2.2.1).2.2
        rwa [lp_none gc] at this
      subst hpi
      simp only [State.pick, hse, set_same]
      have hin : d ∈ (s1.lists (s1.ctx c).prio).filter (· ≠ c) := by
        rw [List.mem_filter]; exact ⟨hd, by simpa using Ne.symm hcd⟩
      have := List.Sublist.append (List.singleton_sublist.2 hin) (List.Sublist.refl [c])
      simpa using this
  have hbad : ∀ e ∈ p1, bad c d e = false := by
    intro e he
    cases hb : bad c d e with
    | false => rfl
    | true =>
      exfalso
      cases e with
      | setPrio x v =>
        simp only [bad, Bool.or_eq_true, beq_iff_eq] at hb
        rcases hb with rfl | rfl
        · exact (hset v).1 he
        · exact (hset v).2 he
      | pick o =>
        cases o with
        | none => simp [bad] at hb
        | some x =>
          simp only [bad, beq_iff_eq] at hb
          subst hb
          exact hmid he
      | _ => simp [bad] at hb
  have hfin := rot_runs hcd bs1 s1.pick.1 t1 (pre ++ [.pick (some c)]) p1 0 hrot hA1 k1 hbad (by
    intro m1 m2 hm
    have := hrun m1 m2 hm
    simpa using this)
  obtain ⟨hR, hA2⟩ := hfin
  have r1 := hrun p1 [] (by simp)
  rw [show pre ++ Ev.pick (some c) :: p1 = (pre ++ [Ev.pick (some c)]) ++ p1 by simp, runnable_iff hR.inv hA2,
    runnable_iff hR.inv hA2] at r1
  rcases hR.ord with ⟨_, ho⟩ | ⟨hn, _⟩
  · exfalso
    cases hse : t1.search with
    | none => simp [State.pick, hse] at k4
    | some r =>
      obtain ⟨i, e⟩ := r
      simp only [State.pick, hse, Option.some.injEq] at k4
      subst k4
      obtain ⟨_, _, h3', h4, ⟨l1, l2, h5, h6⟩, _⟩ := search_some hse
      have hpi : i = (s1.ctx c).prio := by
        have := (hR.inv.mem_list.1 h3').2.2
        rw [lp_none hR.chgc, hR.pc] at this
        exact this
      subst hpi
      exact pair_first (f := fun x => (t1.ctx x).canSchedule) (list_nodup hR.inv _) ho r1.2.2 h5 h6
  · simpa using hn

/-- Non-trivial case: three of one priority rotate, also around a sleep of a better one. -/
example : (runs (step false) State.init (addAll 1 5 ++ addAll 2 5 ++ addAll 3 5 ++ [.pick, .pick, .pick, .pick] ++ addAll 4 0 ++
      [.pick, .enter 4 0, .pick, .pick, .pick])).map (fun p => (p.2.filter fun e => match e with
        | .pick _ => true
        | _ => false)) =
    some [.pick (some 1), .pick (some 2), .pick (some 3), .pick (some 1), .pick (some 4), .pick (some 2), .pick (some 3),
      .pick (some 1)] := by decide

end Verif.Sched
