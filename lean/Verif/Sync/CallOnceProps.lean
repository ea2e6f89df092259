import Verif.Sync.CallOnce

/-! # Properties of co_call_once (C31, C32) -/

namespace Verif.CallOnce

/-! ## C31 -/

/-- Starts so far, and who can be where: the flag is set iff the callable was started; nobody gets past co_call_once.h:22 before. -/
structure Inv (n : Nat) (s : St) : Prop where
  cnt : n = if s.flag then 1 else 0
  past : ∀ t, s.pc t ≠ .idle → s.pc t ≠ .cas → s.flag = true

theorem inv_step (n : Nat) (s : St) (a : Act) (s' : St) (es : List Ev) (hI : Inv n s) (hs : step s a = some (s', es)) :
    Inv (n + starts es) s' := by
  obtain ⟨h1, h2⟩ := hI
  cases a with
  | call t =>
    simp only [step] at hs; split at hs <;> cases hs
    refine ⟨by simpa [starts] using h1, fun u => ?_⟩
    have := h2 u
    simp only [upd]; split <;> simp_all
  | cas t =>
    simp only [step] at hs
    split at hs
    · split at hs <;> cases hs
      · rename_i hf
        exact ⟨by simpa [starts] using h1, fun u _ _ => hf⟩
      · rename_i hf
        exact ⟨by simp [starts, h1, hf], fun u _ _ => rfl⟩
    · cases hs
  | endCall t ok =>
    simp only [step] at hs
    split at hs
    · rename_i hp
      have hf := h2 t (by simp [hp]) (by simp [hp])
      split at hs <;> cases hs <;> exact ⟨by simpa [starts] using h1, fun u _ _ => hf⟩
    · cases hs
  | leave t =>
    simp only [step] at hs
    split at hs
    · rename_i hp
      have hf := h2 t (by simp [hp]) (by simp [hp])
      cases hs; exact ⟨by simpa [starts] using h1, fun u _ _ => hf⟩
    · split at hs <;> cases hs
      rename_i hp
      have hf := h2 t (by simp [hp]) (by simp [hp])
      exact ⟨by simpa [starts] using h1, fun u _ _ => hf⟩

theorem inv_runs (as : List Act) : ∀ (n : Nat) (s s' : St) (es : List Ev), Inv n s → runs step s as = some (s', es) →
    Inv (n + starts es) s' := by
  induction as with
  | nil =>
    intro n s s' es hI h
    simp only [runs, Option.some.injEq, Prod.mk.injEq] at h
    obtain ⟨rfl, rfl⟩ := h
    simpa [starts] using hI
  | cons a as ih =>
    intro n s s' es hI h
    obtain ⟨s1, e1, e2, h1, h2, rfl⟩ := runs_cons h
    have := ih _ s1 s' e2 (inv_step n s a s1 e1 hI h1) h2
    have he : starts (e1 ++ e2) = starts e1 + starts e2 := List.countP_append
    rw [he, ← Nat.add_assoc]; exact this

/-- C31. Over all callers and schedules the callable is started at most once. -/
theorem C31_at_most_once (as : List Act) (s : St) (es : List Ev) (h : runs step St.init as = some (s, es)) :
    starts es ≤ 1 := by
  have := (inv_runs as 0 _ s es ⟨rfl, by simp [St.init]⟩ h).cnt
  split at this <;> omega

/-- C31. It has been started exactly once as soon as some caller has got past the flag; in particular when a call has
returned or thrown. -/
theorem C31_exactly_once (as : List Act) (s : St) (es : List Ev) (h : runs step St.init as = some (s, es)) (t : Tid) :
    (s.pc t ≠ .idle → s.pc t ≠ .cas → starts es = 1) ∧ (Ev.ret t ∈ es ∨ Ev.retExc t ∈ es → starts es = 1) := by
  have hI := inv_runs as 0 _ s es ⟨rfl, by simp [St.init]⟩ h
  have hc := hI.cnt
  refine ⟨fun h1 h2 => ?_, fun hret => ?_⟩
  · rw [hI.past t h1 h2] at hc; simpa using hc
  · obtain ⟨e, he, hmem⟩ : ∃ e, (e = Ev.ret t ∨ e = Ev.retExc t) ∧ e ∈ es := by
      rcases hret with h | h
      · exact ⟨_, Or.inl rfl, h⟩
      · exact ⟨_, Or.inr rfl, h⟩
    obtain ⟨l1, l2, rfl⟩ := List.append_of_mem hmem
    obtain ⟨a1, x, a2, s1, s2, p1, p2, q1, q2, _, hr1, hx, hr2, hp, hq⟩ := runs_split as _ _ _ _ _ h
    have hI1 := inv_runs a1 0 _ s1 p1 ⟨rfl, by simp [St.init]⟩ hr1
    have hs1 : s1.flag = true := by
      cases x with
      | leave u =>
        simp only [step] at hx
        split at hx
        · rename_i hpc; exact hI1.past u (by simp [hpc]) (by simp [hpc])
        · split at hx
          · rename_i hpc; exact hI1.past u (by simp [hpc]) (by simp [hpc])
          · cases hx
      | call u =>
        exfalso
        simp only [step] at hx
        split at hx
        · simp only [Option.some.injEq, Prod.mk.injEq] at hx
          have := hx.2
          cases p2 <;> simp at this
          rcases he with rfl | rfl <;> simp at this
        · cases hx
      | cas u =>
        exfalso
        simp only [step] at hx
        split at hx
        · split at hx <;> simp only [Option.some.injEq, Prod.mk.injEq] at hx <;> have := hx.2
          · simp at this
          · cases p2 <;> simp at this
            rcases he with rfl | rfl <;> simp at this
        · cases hx
      | endCall u ok =>
        exfalso
        simp only [step] at hx
        split at hx
        · split at hx <;> simp only [Option.some.injEq, Prod.mk.injEq] at hx <;> have := hx.2
          all_goals
            cases p2 <;> simp at this
            rcases he with rfl | rfl <;> simp at this
        · cases hx
    have hc1 := hI1.cnt
    rw [hs1] at hc1
    have hle := C31_at_most_once as s _ h
    have : starts (l1 ++ e :: l2) = starts l1 + starts (e :: l2) := List.countP_append
    have h3 : starts l1 = starts p1 + starts p2 := by rw [hp]; exact List.countP_append
    simp at hc1
    omega

/-- Two callers: 1 runs the callable, 2 returns without. -/
example : (runs step St.init [.call 1, .call 2, .cas 2, .cas 1, .endCall 2 true, .leave 2, .leave 1]).map (·.2) =
    some [.call 1, .call 2, .start 2, .finish 2, .ret 2, .ret 1] := by decide

/-! ## C32 -/

/-- C32 is false of the code: 2 returns from `co_call_once` while 1 is still inside the callable (nothing makes the losers
wait). -/
theorem C32_returns_before_completion_negation :
    ∃ as s es, runs step St.init as = some (s, es) ∧ Ev.ret 2 ∈ es ∧ (∀ u, Ev.finish u ∉ es) ∧ s.pc 1 = .running :=
  ⟨[.call 1, .cas 1, .call 2, .cas 2, .leave 2], _, _, rfl, by decide, by simp, rfl⟩

/-- C32 is false of the code for exceptions, in every execution: after the callable has thrown, no later call runs it
again (the flag is not reset), and the later calls return normally. -/
theorem C32_never_retried_negation (as : List Act) (s : St) (es pre post : List Ev) (t u : Tid)
    (h : runs step St.init as = some (s, es)) (hes : es = pre ++ .throws t :: post) : Ev.start u ∉ post := by
  intro hu
  subst hes
  obtain ⟨a1, x, a2, s1, s2, p1, p2, q1, q2, _, hr1, hx, hr2, hp, hq⟩ := runs_split as _ _ _ _ _ h
  have hI1 := inv_runs a1 0 _ s1 p1 ⟨rfl, by simp [St.init]⟩ hr1
  have hle := C31_at_most_once as s _ h
  have hs1 : s1.flag = true := by
    cases x with
    | endCall v ok =>
      simp only [step] at hx
      split at hx
      · rename_i hpc; exact hI1.past v (by simp [hpc]) (by simp [hpc])
      · cases hx
    | leave v =>
      exfalso
      simp only [step] at hx
      split at hx
      · simp only [Option.some.injEq, Prod.mk.injEq] at hx
        have := hx.2
        cases p2 <;> simp at this
      · split at hx
        · simp only [Option.some.injEq, Prod.mk.injEq] at hx
          have := hx.2
          cases p2 <;> simp at this
        · cases hx
    | call v =>
      exfalso
      simp only [step] at hx
      split at hx
      · simp only [Option.some.injEq, Prod.mk.injEq] at hx
        have := hx.2
        cases p2 <;> simp at this
      · cases hx
    | cas v =>
      exfalso
      simp only [step] at hx
      split at hx
      · split at hx <;> simp only [Option.some.injEq, Prod.mk.injEq] at hx <;> have := hx.2
        · simp at this
        · cases p2 <;> simp at this
      · cases hx
  have hc1 := hI1.cnt
  rw [hs1] at hc1
  have h2 : starts (pre ++ Ev.throws t :: post) = starts pre + starts (Ev.throws t :: post) := List.countP_append
  have h3 : starts pre = starts p1 + starts p2 := by rw [hp]; exact List.countP_append
  have h4 : 0 < starts (Ev.throws t :: post) := List.countP_pos_iff.2 ⟨_, List.mem_cons_of_mem _ hu, rfl⟩
  simp at hc1
  omega

example : (runs step St.init [.call 1, .cas 1, .endCall 1 false, .leave 1, .call 2, .cas 2, .leave 2]).map (·.2) =
    some [.call 1, .start 1, .throws 1, .retExc 1, .call 2, .ret 2] := by decide

/-- What one caller does, by its events. (Concerns co_call_once.h:14-26.) -/
inductive QTh
  | idle
  | called
  | inside
  | finished
  | thrown
  deriving DecidableEq

/-- Specification: the automaton of a correct call_once, as far as the code satisfies it. (Concerns co_call_once.h:14-26.) -/
def acc (q : Tid → QTh) : Ev → Option (Tid → QTh)
  | .call t => if q t = .idle then some (upd q t .called) else none
  | .start t => if q t = .called then some (upd q t .inside) else none
  | .finish t => if q t = .inside then some (upd q t .finished) else none
  | .throws t => if q t = .inside then some (upd q t .thrown) else none
  | .ret t => if q t = .called ∨ q t = .finished then some (upd q t .idle) else none
  | .retExc t => if q t = .thrown then some (upd q t .idle) else none

/-- C32, what does hold: the caller that runs the callable returns only after it has completed, and gets its exception if
it throws. Missing: the same for the other callers, and the retry (both false, see above). -/
theorem C32_winner_waits_partial (as : List Act) (s : St) (es : List Ev) (h : runs step St.init as = some (s, es)) :
    ∃ q, accepts acc (fun _ => QTh.idle) es = some q := by
  have := runs_sim (acc := acc) (fun (s : St) q => ∀ t, match s.pc t with
      | .idle => q t = .idle | .cas => q t = .called | .running => q t = .inside
      | .done => q t = .called ∨ q t = .finished | .exc => q t = .thrown) (by
    intro s a s' es q hR hs
    cases a with
    | call t =>
      simp only [step] at hs; split at hs <;> cases hs
      rename_i hp
      have ht := hR t
      simp only [hp] at ht
      simp only [accepts, acc, ht, if_true, Option.bind_some]
      refine ⟨_, rfl, fun u => ?_⟩
      have := hR u
      by_cases hu : u = t
      · subst hu; simp
      · simpa [hu] using this
    | cas t =>
      simp only [step] at hs
      split at hs
      · rename_i hp
        have ht := hR t
        simp only [hp] at ht
        split at hs <;> cases hs
        · refine ⟨_, rfl, fun u => ?_⟩
          have := hR u
          by_cases hu : u = t
          · subst hu; simp [ht]
          · simpa [hu] using this
        · simp only [accepts, acc, ht, if_true, Option.bind_some]
          refine ⟨_, rfl, fun u => ?_⟩
          have := hR u
          by_cases hu : u = t
          · subst hu; simp
          · simpa [hu] using this
      · cases hs
    | endCall t ok =>
      simp only [step] at hs
      split at hs
      · rename_i hp
        have ht := hR t
        simp only [hp] at ht
        split at hs <;> cases hs
        all_goals
          simp only [accepts, acc, ht, if_true, Option.bind_some]
          refine ⟨_, rfl, fun u => ?_⟩
          have := hR u
          by_cases hu : u = t
          · subst hu; simp
          · simpa [hu] using this
      · cases hs
    | leave t =>
      simp only [step] at hs
      split at hs
      · rename_i hp
        have ht := hR t
        simp only [hp] at ht
        cases hs
        simp only [accepts, acc, if_pos ht, Option.bind_some]
        refine ⟨_, rfl, fun u => ?_⟩
        have := hR u
        by_cases hu : u = t
        · subst hu; simp
        · simpa [hu] using this
      · split at hs <;> cases hs
        rename_i hp
        have ht := hR t
        simp only [hp] at ht
        simp only [accepts, acc, if_pos ht, Option.bind_some]
        refine ⟨_, rfl, fun u => ?_⟩
        have := hR u
        by_cases hu : u = t
        · subst hu; simp
        · simpa [hu] using this) as St.init s es (fun _ => .idle) (fun t => rfl) h
  obtain ⟨q, hq, _⟩ := this
  exact ⟨q, hq⟩

end Verif.CallOnce
