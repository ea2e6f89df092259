import Verif.Monitor.LowInv
import Verif.Base.Sum

/-! # The concrete monitor machine refines the abstract one -/

namespace Verif.Monitor
section
variable {σ C K V E : Type} [DecidableEq C]

/-- The queues as they will be when the coroutine `t` at point `p` has released the mutex. (Concerns co_condition_variable.h:69-88, co_condition_variable.cpp:18-39.) -/
def pend (p : Pc C K V) (t : Tid) (wl : C → List Tid) : C → List Tid :=
  match p with
  | .sig l f => enqueue (l.foldl notify wl) t f
  | .sGo g l f => enqueue (l.foldl notify (notify wl g)) t f
  | .sWake _ _ l f | .sRel _ l f => enqueue (l.foldl notify wl) t f
  | .sAll c _ l f => enqueue (l.foldl notify (setC wl c [])) t f
  | .pPush c _ => setC wl c (wl c ++ [t])
  | _ => wl

/-- Proof device: the waiting queues the atomic machine has in the corresponding state. (Concerns co_condition_variable.h:69-88, co_condition_variable.cpp:18-39.) -/
def Low.wq (s : Low σ C K V) : C → List Tid :=
  match s.mtx with
  | some h => pend (s.pc h) h s.wl
  | none => s.wl

/-- Abstract state of a coroutine at point `p`. (Concerns co_condition_variable.h:69-88, co_condition_variable.cpp:18-39.) -/
def thP (p : Pc C K V) (wq : C → List Tid) (t : Tid) : Th C K V :=
  match p with
  | .idle => .idle
  | .acq k | .exec k => .ready k
  | .sig _ f | .sGo _ _ f | .sWake _ _ _ f | .sAll _ _ _ f | .sRel _ _ f => f.th
  | .pPush c k | .pUnlk c k => .parked c k
  | .pSleep c k | .pRel c k | .pYield c k => if t ∈ wq c then .parked c k else .ready k

/-- The abstract state of a concrete one: whatever the holder of the mutex has still to do to the queues counts as
done. (Concerns co_condition_variable.h:69-88, co_condition_variable.cpp:18-39.) -/
def Low.abs (s : Low σ C K V) : Abs σ C K V := ⟨s.sh, s.wq, fun t => thP (s.pc t) s.wq t⟩

theorem abs_init (s0 : σ) : (Low.init s0 : Low σ C K V).abs = Abs.init s0 := rfl

theorem mem_pend {p : Pc C K V} {t u : Tid} {wl : C → List Tid} {c : C} (h : u ∈ (pend p t wl) c) :
    u ∈ wl c ∨ u = t := by
  have key : ∀ (l : List (Sig C)) (f : Fin C K V) (wl' : C → List Tid), (∀ d, (wl' d).Sublist (wl d)) →
      u ∈ (enqueue (l.foldl notify wl') t f) c → u ∈ wl c ∨ u = t := by
    intro l f wl' hs hu
    rw [mem_enqueue] at hu
    rcases hu with hu | hu
    · exact Or.inl ((hs c).subset ((foldl_notify_sublist l wl' c).subset hu))
    · exact Or.inr hu.1
  cases p <;> simp only [pend] at h
  case sig l f => exact key l f wl (fun _ => List.Sublist.refl _) h
  case sGo g l f => exact key l f _ (fun d => notify_sublist wl g d) h
  case sWake d v l f => exact key l f wl (fun _ => List.Sublist.refl _) h
  case sRel d l f => exact key l f wl (fun _ => List.Sublist.refl _) h
  case sAll d ws l f =>
    refine key l f _ (fun e => ?_) h
    simp only [setC]; split
    · exact List.nil_sublist _
    · exact List.Sublist.refl _
  case pPush d k => simp only [setC] at h; grind
  all_goals exact Or.inl h

theorem wq_sub {s : Low σ C K V} {u : Tid} {c : C} (hu : s.mtx ≠ some u) (h : u ∈ s.wq c) :
    u ∈ s.eff c := by
  simp only [Low.wq] at h
  cases hm : s.mtx with
  | none => simp only [hm] at h; rw [eff_none hm]; exact h
  | some t =>
    simp only [hm] at h
    have hut : u ≠ t := by rintro rfl; exact hu hm
    rw [eff_of hm]
    cases hp : s.pc t <;> simp only [hp] at h ⊢
    case sAll d ws l f =>
      have h2 := h
      simp only [pend] at h2
      rw [mem_enqueue] at h2
      simp only [hut, false_and, or_false] at h2
      have h3 := (foldl_notify_sublist l _ c).subset h2
      simp only [setC] at h3
      split at h3
      · simp at h3
      · rename_i hd; simp [hd, h3]
    all_goals
      rcases mem_pend h with h | h
      · exact h
      · exact absurd h hut

theorem abs_eq {s s' : Low σ C K V} {t : Tid} (hsh : s'.sh = s.sh) (hw : s'.wq = s.wq)
    (hp : ∀ u, u ≠ t → s'.pc u = s.pc u) (ht : thP (s'.pc t) s.wq t = thP (s.pc t) s.wq t) :
    s'.abs = s.abs := by
  simp only [Low.abs, hsh, hw, Abs.mk.injEq, true_and]
  funext u
  by_cases hu : u = t
  · subst hu; exact ht
  · rw [hp u hu]

theorem wq_other {s s' : Low σ C K V} {t : Tid} (hm : s'.mtx = s.mtx) (hne : s.mtx ≠ some t)
    (hpc : ∀ u, u ≠ t → s'.pc u = s.pc u) (hwl : s'.wl = s.wl) : s'.wq = s.wq := by
  simp only [Low.wq, hm, hwl]
  cases h : s.mtx with
  | none => rfl
  | some u =>
    have : u ≠ t := by rintro rfl; exact hne h
    simp [hpc u this]

/-- The points from which a step is a step of the abstract machine. (Concerns co_condition_variable.h:69-88, co_condition_variable.cpp:18-39.) -/
def Pc.visible : Pc C K V → Bool
  | .exec _ | .sig [] (.ret _) => true
  | _ => false

/-- Every concrete step is no abstract step (and emits nothing) or one. -/
theorem refine_step {o : Obj σ C K V E} (s : Low σ C K V) (a : Act K) (s' : Low σ C K V)
    (es : List (Ev K V E)) (h : s.Inv) (hs : s.step o a = some (s', es)) :
    (es = [] ∧ s'.abs = s.abs ∧ ∀ t, a = .run t → (s.pc t).visible = false) ∨
      ∃ x, (∀ t, a = .run t → x = .run t ∨ x = .leave t) ∧ s.abs.step o x = some (s'.abs, es) := by
  cases a with
  | call t k =>
    simp only [Low.step, Low.goto] at hs
    have hw : s'.wq = s.wq := by
      split at hs <;> cases hs
      rename_i hp
      have hm : s.mtx ≠ some t := fun e => by have := (h.m t).2 e; simp [hp, Pc.hasM] at this
      exact wq_other rfl hm (fun u hu => by simp [hu]) rfl
    split at hs <;> cases hs
    rename_i hp
    right
    refine ⟨.call t k, by simp, ?_⟩
    simp only [Abs.step, Low.abs, hp, thP, Option.some.injEq, Prod.mk.injEq, and_true]
    simp only [Low.abs, Abs.mk.injEq, true_and, hw]
    funext u
    by_cases hu : u = t
    · subst hu; simp
    · simp [hu]
  | run t =>
    have hl := h.loc t
    have hmt := h.m t
    simp only [Low.step, Low.runStep, Low.goto] at hs
    cases hp : s.pc t <;> simp only [hp] at hs hmt hl
    all_goals simp only [LocP] at hl
    all_goals simp only [Pc.hasM] at hmt
    case idle => cases hs
    case acq k =>
      split at hs <;> cases hs
      rename_i hm
      exact Or.inl ⟨rfl, abs_eq (t := t) rfl (by simp [Low.wq, hm, pend]) (fun u hu => by simp [hu])
        (by simp [hp, thP]), by simp [hp, Pc.visible]⟩
    case exec k =>
      cases hs
      have hm : s.mtx = some t := by simpa using hmt
      have hw : s.wq = s.wl := by simp [Low.wq, hm, hp, pend]
      right
      refine ⟨.run t, by simp, ?_⟩
      simp only [Abs.step, Low.abs, hp, thP, Option.some.injEq, Prod.mk.injEq, and_true, Abs.mk.injEq,
        true_and]
      simp only [hw]
      have hw' : enqueue (List.foldl notify s.wl (o.body t k s.sh).sigs) t (o.body t k s.sh).fin =
        ({ s with sh := (o.body t k s.sh).sh,
                  pc := upd s.pc t (.sig (o.body t k s.sh).sigs (o.body t k s.sh).fin) } :
          Low σ C K V).wq := by simp [Low.wq, hm, pend]
      refine ⟨hw', ?_⟩
      rw [← hw']
      funext u
      by_cases hu : u = t
      · subst hu; simp
      · simp only [upd_other _ _ hu]
        have hsub : ∀ c, u ∈ enqueue (List.foldl notify s.wl (o.body t k s.sh).sigs) t
            (o.body t k s.sh).fin c → u ∈ s.wl c := by
          intro c hc
          rw [mem_enqueue] at hc
          simp only [hu, false_and, or_false] at hc
          exact (foldl_notify_sublist _ _ c).subset hc
        have h3 := h.m u
        simp only [hm, Option.some.injEq, Ne.symm hu, iff_false] at h3
        cases hpu : s.pc u <;> simp only [hpu, Pc.hasM] at h3 ⊢ <;> first
          | exact absurd trivial h3
          | rfl
          | (simp only [settle]; rename_i c k; have := hsub c; grind [settle])
    case sig l f =>
      have hm : s.mtx = some t := by simpa using hmt
      rcases l with _ | ⟨g, l⟩
      rcases f with v | v | ⟨c, k⟩
      all_goals simp only at hs
      · cases hs
        right
        refine ⟨.leave t, by simp, ?_⟩
        have hw : s.wq = s.wl := by simp [Low.wq, hm, hp, pend, enqueue]
        simp only [Abs.step, Low.abs, hp, thP, Fin.th, Option.some.injEq, Prod.mk.injEq, and_true,
          Abs.mk.injEq, true_and, hw]
        refine ⟨by simp [Low.wq], ?_⟩
        have hw' : ({ s with mtx := none, pc := upd s.pc t .idle } : Low σ C K V).wq = s.wl := by
          simp [Low.wq]
        rw [hw']
        funext u
        by_cases hu : u = t
        · subst hu; simp
        · simp [hu]
      · cases hs
        exact Or.inl ⟨rfl, abs_eq (t := t) rfl (by simp [Low.wq, hm, hp, pend, enqueue])
          (fun u hu => by simp [hu]) (by simp [hp, thP, Fin.th]), by simp [hp, Pc.visible]⟩
      · split at hs <;> cases hs
        exact Or.inl ⟨rfl, abs_eq (t := t) rfl (by simp [Low.wq, hm, hp, pend, enqueue])
          (fun u hu => by simp [hu]) (by simp [hp, thP, Fin.th]), by simp [hp, Pc.visible]⟩
      · split at hs <;> cases hs
        exact Or.inl ⟨rfl, abs_eq (t := t) rfl (by simp [Low.wq, hm, hp, pend])
          (fun u hu => by simp [hu]) (by simp [hp, thP]), by simp [hp, Pc.visible]⟩
    case sGo g l f =>
      have hm : s.mtx = some t := by simpa using hmt
      cases g with
      | one c =>
        simp only at hs
        split at hs <;> cases hs
        · rename_i hw
          have : setC s.wl c [] = s.wl := by rw [← hw]; simp
          exact Or.inl ⟨rfl, abs_eq (t := t) rfl (by simp [Low.wq, hm, hp, pend, notify, hw, this])
            (fun u hu => by simp [hu]) (by simp [hp, thP]), by simp [hp, Pc.visible]⟩
        · rename_i v rest hw
          exact Or.inl ⟨rfl, abs_eq (t := t) rfl (by simp [Low.wq, hm, hp, pend, notify, hw])
            (fun u hu => by simp [hu]) (by simp [hp, thP]), by simp [hp, Pc.visible]⟩
      | all c =>
        cases hs
        exact Or.inl ⟨rfl, abs_eq (t := t) rfl (by simp [Low.wq, hm, hp, pend, notify])
            (fun u hu => by simp [hu]) (by simp [hp, thP]), by simp [hp, Pc.visible]⟩
    case sAll c ws l f =>
      have hm : s.mtx = some t := by simpa using hmt
      cases ws <;> cases hs
      all_goals
        exact Or.inl ⟨rfl, abs_eq (t := t) rfl (by simp [Low.wq, hm, hp, pend])
          (fun u hu => by simp [hu]) (by simp [hp, thP]), by simp [hp, Pc.visible]⟩
    case sWake c v l f | sRel c l f | pPush c k =>
      all_goals
        have hm : s.mtx = some t := by simpa using hmt
        cases hs
        exact Or.inl ⟨rfl, abs_eq (t := t) rfl (by simp [Low.wq, hm, hp, pend])
            (fun u hu => by simp [hu]) (by simp [hp, thP]), by simp [hp, Pc.visible]⟩
    case pUnlk c k =>
      have hm : s.mtx = some t := by simpa using hmt
      cases hs
      have hw : s.wq = s.wl := by simp [Low.wq, hm, hp, pend]
      have he : s.eff = s.wl := by funext d; simp [Low.eff, hm, hp]
      rw [he] at hl
      exact Or.inl ⟨rfl, abs_eq (t := t) rfl (by simp [Low.wq, hm, hp, pend])
            (fun u hu => by simp [hu]) (by simp [hp, thP, hw, hl.1]), by simp [hp, Pc.visible]⟩
    all_goals
      have hm : s.mtx ≠ some t := fun e => by have := hmt.2 e; cases this
      have hsm : s'.wq = s.wq := by
        (try split at hs) <;> cases hs
        all_goals exact wq_other rfl hm (fun u hu => by simp [hu]) rfl
    case pSleep c k | pRel c k =>
      all_goals
        cases hs
        exact Or.inl ⟨rfl, abs_eq (t := t) rfl hsm (fun u hu => by simp [hu]) (by simp [hp, thP]), by simp [hp, Pc.visible]⟩
    case pYield c k =>
      split at hs <;> cases hs
      rename_i hna
      have : t ∉ s.wq c := fun hx => hna (hl.1.2 (Or.inl (wq_sub hm hx)))
      exact Or.inl ⟨rfl, abs_eq (t := t) rfl hsm (fun u hu => by simp [hu]) (by simp [hp, thP, this]), by simp [hp, Pc.visible]⟩

/-- Executions from any state satisfying the invariant. -/
theorem refine_runs (o : Obj σ C K V E) : ∀ (as : List (Act K)) (s s' : Low σ C K V) (es : List (Ev K V E)), s.Inv →
    runs (Low.step o) s as = some (s', es) → ∃ bs, runs (Abs.step o) s.abs bs = some (s'.abs, es) := by
  intro as
  induction as with
  | nil =>
    intro s s' es _ h
    simp only [runs, Option.some.injEq, Prod.mk.injEq] at h
    exact ⟨[], by rw [← h.1, ← h.2]; rfl⟩
  | cons a as ih =>
    intro s s' es hI h
    obtain ⟨s1, e1, e2, h1, h2, rfl⟩ := runs_cons h
    obtain ⟨bs, hb⟩ := ih s1 s' e2 (Low.inv_step s a s1 e1 hI h1) h2
    rcases refine_step s a s1 e1 hI h1 with ⟨rfl, he, _⟩ | ⟨x, _, hx⟩
    · exact ⟨bs, by rw [← he]; simpa using hb⟩
    · exact ⟨x :: bs, by simp only [runs, hx, hb]⟩

/-- C22. Every execution of a monitor object with all its internal steps is an execution of the abstract machine, in
which a critical section is one step: same trace of calls, events and returns, same data. -/
theorem C22_critical_sections_atomic (o : Obj σ C K V E) (s0 : σ) (as : List (Act K)) (s : Low σ C K V)
    (es : List (Ev K V E)) (h : runs (Low.step o) (Low.init s0) as = some (s, es)) :
    ∃ bs, runs (Abs.step o) (Abs.init s0) bs = some (s.abs, es) :=
  refine_runs o as _ s es (Low.inv_init s0) h

/-- The abstract execution for `gateRun`: same trace. -/
example : (runs (Abs.step gate) (Abs.init false) [.call 1 true, .run 1, .call 2 true, .run 2, .call 3 false, .run 3,
      .leave 3, .run 1, .leave 1]).map (·.2) = (runs (Low.step gate) (Low.init false) gateRun).map (·.2) := by
  decide

/-- C22, progress: if no coroutine inside a call can make a step, then in the abstract state everybody is outside or
waits in the queue of a condition variable. -/
theorem C22_stuck_only_parked (o : Obj σ C K V E) (s0 : σ) (s : Low σ C K V)
    (h : Reach (Low.step o) (Low.init s0) s) (hst : ∀ t, s.step o (.run t) = none) (t : Tid) :
    (s.pc t = .idle ∧ s.abs.th t = .idle) ∨ ∃ c k, s.pc t = .pYield c k ∧ s.asleep t = true ∧ t ∈ s.wl c ∧
      s.abs.th t = .parked c k ∧ s.abs.wq = s.wl := by
  have hI := h.inv Low.Inv (Low.inv_step (o := o)) (Low.inv_init s0)
  have hcv : ∀ c, s.cv c = none := by
    intro c
    cases hc : s.cv c with
    | none => rfl
    | some u =>
      exfalso
      have h1 := (hI.c u c).2 hc
      have h2 := hst u
      simp only [Low.step, Low.runStep] at h2
      cases hp : s.pc u <;> simp only [hp, Pc.hasC] at h1 h2 <;> first | (cases h1; done) | (cases h2; done) | skip
      · rename_i g l f
        cases g <;> simp only at h2
        · split at h2 <;> cases h2
        · cases h2
      · rename_i d ws l f
        cases ws <;> cases h2
  have hm : s.mtx = none := by
    cases hm : s.mtx with
    | none => rfl
    | some u =>
      exfalso
      have h1 := (hI.m u).2 hm
      have h2 := hst u
      simp only [Low.step, Low.runStep] at h2
      cases hp : s.pc u <;> simp only [hp, Pc.hasM] at h1 h2 <;> first | (cases h1; done) | (cases h2; done) | skip
      · rename_i l f
        rcases l with _ | ⟨g, l⟩
        rcases f with v | v | ⟨c, k⟩
        all_goals simp [hcv] at h2
      · rename_i g l f
        cases g <;> simp only at h2
        · split at h2 <;> cases h2
        · cases h2
      · rename_i d ws l f
        cases ws <;> cases h2
  have hw : s.wq = s.wl := by simp [Low.wq, hm]
  have he : s.eff = s.wl := by funext d; simp [Low.eff, hm]
  have hl := hI.loc t
  have h1 := hI.m t
  have h3 := hst t
  have hc := hI.c t
  simp only [Low.step, Low.runStep] at h3
  simp only [Low.abs]
  cases hp : s.pc t <;> simp only [hp, hm, Pc.hasM, Pc.hasC, hcv] at h1 h3 hc <;>
    first
      | (left; exact ⟨rfl, rfl⟩)
      | (exfalso; simp at h1; done)
      | (exfalso; simp at h3; done)
      | (exfalso; rename_i c k; have := (hc c).1 rfl; cases this; done)
      | skip
  rename_i c k
  right
  simp only [he, waking_none hm, hp, LocP] at hl
  have ha : s.asleep t = true := by
    cases ha : s.asleep t with
    | true => rfl
    | false => simp [ha] at h3
  have hmem : t ∈ s.wl c := by simpa [ha] using hl.1
  exact ⟨c, k, rfl, ha, hmem, by simp [thP, hw, hmem], hw⟩

/-- With the gate shut nobody inside can make a step, and 1 is in the queue. -/
example : (runs (Low.step gate) (Low.init false) ([.call 1 true] ++ List.replicate 7 (.run 1))).map
    (fun p => (p.1.pc 1, p.1.asleep 1, p.1.wl (), (p.1.step gate (.run 1)).isNone)) =
    some (.pYield () true, true, [1], true) := by decide

end
end Verif.Monitor
