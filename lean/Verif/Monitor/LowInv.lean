import Verif.Monitor.Low

/-! # Invariant of the concrete monitor machine (helper lemmas) -/

namespace Verif.Monitor
section
variable {σ C K V E : Type} [DecidableEq C]

/-- The waiters on `c` that a running notify_all has not woken yet. (Concerns co_condition_variable.h:69-88, co_condition_variable.cpp:18-39.) -/
def Low.eff (s : Low σ C K V) (c : C) : List Tid :=
  match s.mtx with
  | some h => (match s.pc h with | .sAll d ws _ _ => if c = d then ws else s.wl c | _ => s.wl c)
  | none => s.wl c

/-- The waiter a running notify_one has popped and not woken yet. (Concerns co_condition_variable.h:69-88, co_condition_variable.cpp:18-39.) -/
def Low.waking (s : Low σ C K V) (c : C) : Option Tid :=
  match s.mtx with
  | some h => (match s.pc h with | .sWake d u _ _ => if c = d then some u else none | _ => none)
  | none => none

/-- What is true of coroutine `t` at program point `p`. (Concerns co_condition_variable.h:69-88, co_condition_variable.cpp:18-39.) -/
def LocP (p : Pc C K V) (asleep : Bool) (eff : C → List Tid) (waking : C → Option Tid) (t : Tid) : Prop :=
  match p with
  | .pUnlk c _ | .pSleep c _ =>
    t ∈ eff c ∧ asleep = false ∧ (∀ d, t ∈ eff d → d = c) ∧ ∀ d, waking d ≠ some t
  | .pRel c _ =>
    t ∈ eff c ∧ asleep = true ∧ (∀ d, t ∈ eff d → d = c) ∧ ∀ d, waking d ≠ some t
  | .pYield c _ =>
    (asleep = true ↔ t ∈ eff c ∨ waking c = some t) ∧ ∀ d, t ∈ eff d ∨ waking d = some t → d = c
  | _ => asleep = false ∧ ∀ d, t ∉ eff d ∧ waking d ≠ some t

/-- Proof device: the invariant of the interleaved machine. (Concerns co_condition_variable.h:69-88, co_condition_variable.cpp:18-39.) -/
structure Low.Inv (s : Low σ C K V) : Prop where
  loc : ∀ t, LocP (s.pc t) (s.asleep t) s.eff s.waking t
  m : ∀ t, (s.pc t).hasM = true ↔ s.mtx = some t
  c : ∀ t c, (s.pc t).hasC = some c ↔ s.cv c = some t
  nodup : ∀ c, (s.eff c).Nodup
  wake : ∀ c u, s.waking c = some u → u ∉ s.eff c

theorem Low.inv_init (s0 : σ) : (Low.init s0 : Low σ C K V).Inv := by
  constructor <;> simp [Low.init, LocP, Low.eff, Low.waking, Pc.hasM, Pc.hasC]

theorem LocP.frame {p : Pc C K V} {a : Bool} {e e' : C → List Tid} {w w' : C → Option Tid} {u : Tid}
    (h : LocP p a e w u) (hw : ∀ d, u ∈ e' d ↔ u ∈ e d) (hk : ∀ d, w' d = some u ↔ w d = some u) :
    LocP p a e' w' u := by
  simp only [LocP, hw, hk, ne_eq] at *
  exact h

/-- A coroutine that is being woken, or is queued while somebody else has the `cv_lock__`, is in `CoYield()`. -/
theorem LocP.woken {p : Pc C K V} {a : Bool} {e : C → List Tid} {w : C → Option Tid} {u : Tid} {c : C}
    (h : LocP p a e w u) (hc : p.hasC ≠ some c) (hw : w c = some u ∨ u ∈ e c) :
    (∃ k, p = .pYield c k) ∧ ∀ d, u ∈ e d ∨ w d = some u → d = c := by
  cases p <;> simp only [LocP, Pc.hasC] at h hc
  case pYield d k =>
    have hd := h.2 c (hw.symm)
    subst hd
    exact ⟨⟨k, rfl⟩, h.2⟩
  case pUnlk d k | pSleep d k | pRel d k =>
    exfalso
    rcases hw with hw | hw
    · exact h.2.2.2 c hw
    · exact hc (by rw [h.2.2.1 c hw])
  all_goals
    exfalso
    rcases hw with hw | hw
    · exact (h.2 c).2 hw
    · exact (h.2 c).1 hw

theorem eff_of {s : Low σ C K V} {t : Tid} (h : s.mtx = some t) :
    s.eff = fun c => (match s.pc t with | .sAll d ws _ _ => if c = d then ws else s.wl c | _ => s.wl c) := by
  funext c; simp [Low.eff, h]

theorem waking_of {s : Low σ C K V} {t : Tid} (h : s.mtx = some t) :
    s.waking = fun c => (match s.pc t with | .sWake d u _ _ => if c = d then some u else none | _ => none) := by
  funext c; simp [Low.waking, h]

theorem eff_none {s : Low σ C K V} (h : s.mtx = none) : s.eff = s.wl := by funext c; simp [Low.eff, h]
theorem waking_none {s : Low σ C K V} (h : s.mtx = none) : s.waking = fun _ => none := by
  funext c; simp [Low.waking, h]

theorem eff_other {s s' : Low σ C K V} {t : Tid} (hm : s'.mtx = s.mtx) (hne : s.mtx ≠ some t)
    (hpc : ∀ u, u ≠ t → s'.pc u = s.pc u) (hwl : s'.wl = s.wl) :
    s'.eff = s.eff ∧ s'.waking = s.waking := by
  have : ∀ c, s'.eff c = s.eff c ∧ s'.waking c = s.waking c := by
    intro c
    simp only [Low.eff, Low.waking, hm, hwl]
    cases h : s.mtx with
    | none => simp
    | some u =>
      have : u ≠ t := by rintro rfl; exact hne h
      simp [hpc u this]
  exact ⟨funext fun c => (this c).1, funext fun c => (this c).2⟩

/-- A step of `t` that changes neither queues nor who is being woken keeps the invariant if the
point of `t` is right afterwards. -/
theorem inv_same {s s' : Low σ C K V} {t : Tid} (h : s.Inv) (he : s'.eff = s.eff)
    (hw : s'.waking = s.waking) (hp : ∀ u, u ≠ t → s'.pc u = s.pc u)
    (ha : ∀ u, u ≠ t → s'.asleep u = s.asleep u) (ht : LocP (s'.pc t) (s'.asleep t) s.eff s.waking t)
    (hm : (s'.pc t).hasM = true ↔ s'.mtx = some t) (hm' : ∀ u, u ≠ t → (s'.mtx = some u ↔ s.mtx = some u))
    (hc : ∀ c, (s'.pc t).hasC = some c ↔ s'.cv c = some t)
    (hc' : ∀ u c, u ≠ t → (s'.cv c = some u ↔ s.cv c = some u)) : s'.Inv := by
  refine ⟨fun u => ?_, fun u => ?_, fun u c => ?_, fun c => by rw [he]; exact h.nodup c, fun c u => ?_⟩
  · by_cases hu : u = t
    · subst hu; rw [he, hw]; exact ht
    · rw [hp u hu, ha u hu, he, hw]; exact h.loc u
  · by_cases hu : u = t
    · subst hu; exact hm
    · rw [hp u hu, hm' u hu]; exact h.m u
  · by_cases hu : u = t
    · subst hu; exact hc c
    · rw [hp u hu, hc' u c hu]; exact h.c u c
  · rw [he, hw]; exact h.wake c u

theorem Low.inv_step {o : Obj σ C K V E} (s : Low σ C K V) (a : Act K) (s' : Low σ C K V)
    (es : List (Ev K V E)) (h : s.Inv) (hs : s.step o a = some (s', es)) : s'.Inv := by
  cases a with
  | call t k =>
    simp only [Low.step, Low.goto] at hs
    have hsm : s'.eff = s.eff ∧ s'.waking = s.waking := by
      split at hs <;> cases hs
      rename_i hp
      have hm : s.mtx ≠ some t := fun e => by have := (h.m t).2 e; simp [hp, Pc.hasM] at this
      exact eff_other rfl hm (fun u hu => by simp [hu]) rfl
    split at hs <;> cases hs
    rename_i hp
    have h1 := h.loc t; have h2 := h.m t; have h3 := h.c t
    simp only [hp, Pc.hasM, Pc.hasC, LocP] at h1 h2 h3
    refine inv_same (t := t) h hsm.1 hsm.2 (fun u hu => by simp [hu]) (fun u _ => rfl) ?_ ?_
      (fun _ _ => Iff.rfl) ?_ (fun _ _ _ => Iff.rfl)
    · simpa only [upd_same, LocP] using h1
    · simpa only [upd_same, Pc.hasM] using h2
    · simpa only [upd_same, Pc.hasC] using h3
  | run t =>
    have hl := h.loc t
    have hmt := h.m t
    have hct := h.c t
    have hcu := h.c
    simp only [Low.step, Low.runStep, Low.goto] at hs
    cases hp : s.pc t <;> simp only [hp] at hs hmt hct hl
    all_goals simp only [LocP] at hl
    all_goals simp only [Pc.hasM, Pc.hasC] at hmt hct
    case idle => cases hs
    case acq k =>
      split at hs <;> cases hs
      rename_i hm
      refine inv_same (t := t) h ?_ ?_ (fun u hu => by simp [hu]) (fun u _ => rfl) ?_ ?_ ?_ ?_
        (fun _ _ _ => Iff.rfl)
      · funext d; simp [Low.eff, hm, hp]
      · funext d; simp [Low.waking, hm, hp]
      · simpa only [upd_same, LocP] using hl
      · simp [Pc.hasM]
      · intro u hu; simp [hm, Ne.symm hu]
      · simpa only [upd_same, Pc.hasC] using hct
    case exec k =>
      cases hs
      have hm : s.mtx = some t := by simpa using hmt
      refine inv_same (t := t) h ?_ ?_ (fun u hu => by simp [hu]) (fun u _ => rfl) ?_ ?_
        (fun _ _ => Iff.rfl) ?_ (fun _ _ _ => Iff.rfl)
      · funext d; simp [Low.eff, hm, hp]
      · funext d; simp [Low.waking, hm, hp]
      · simpa only [upd_same, LocP] using hl
      · simp [Pc.hasM, hm]
      · simpa only [upd_same, Pc.hasC] using hct
    case sig l f =>
      have hm : s.mtx = some t := by simpa using hmt
      have hl' := hl
      rw [eff_of (s := s) hm, waking_of hm] at hl'
      simp only [hp] at hl'
      rcases l with _ | ⟨g, l⟩
      rcases f with v | v | ⟨c, k⟩
      all_goals simp only at hs
      rotate_left 3
      · split at hs <;> cases hs
        rename_i hg
        refine inv_same (t := t) h ?_ ?_ (fun u hu => by simp [hu]) (fun u _ => rfl) ?_ ?_
          (fun _ _ => Iff.rfl) ?_ ?_
        · funext d; simp [Low.eff, hm, hp]
        · funext d; simp [Low.waking, hm, hp]
        · simpa only [upd_same, LocP] using hl
        · simp [Pc.hasM, hm]
        · intro c; simp only [upd_same, Pc.hasC]; have := hct c; grind
        · intro u c hu; grind
      · cases hs
        refine inv_same (t := t) h ?_ ?_ (fun u hu => by simp [hu]) (fun u _ => rfl) ?_ ?_
          ?_ ?_ (fun _ _ _ => Iff.rfl)
        · funext d; simp [Low.eff, hm, hp]
        · funext d; simp [Low.waking, hm, hp]
        · simpa only [upd_same, LocP] using hl
        · simp [Pc.hasM]
        · intro u hu; simp [hm, Ne.symm hu]
        · simpa only [upd_same, Pc.hasC] using hct
      · cases hs
        refine inv_same (t := t) h ?_ ?_ (fun u hu => by simp [hu]) (fun u _ => rfl) ?_ ?_
          ?_ ?_ (fun _ _ _ => Iff.rfl)
        · funext d; simp [Low.eff, hm, hp]
        · funext d; simp [Low.waking, hm, hp]
        · simpa only [upd_same, LocP] using hl
        · simp [Pc.hasM]
        · intro u hu; simp [hm, Ne.symm hu]
        · simpa only [upd_same, Pc.hasC] using hct
      · split at hs <;> cases hs
        rename_i hg
        refine inv_same (t := t) h ?_ ?_ (fun u hu => by simp [hu]) (fun u _ => rfl) ?_ ?_
          (fun _ _ => Iff.rfl) ?_ ?_
        · funext d; simp [Low.eff, hm, hp]
        · funext d; simp [Low.waking, hm, hp]
        · simpa only [upd_same, LocP] using hl
        · simp [Pc.hasM, hm]
        · intro c; simp only [upd_same, Pc.hasC]; have := hct c; grind
        · intro u c hu; grind
    case sGo g l f =>
      have hm : s.mtx = some t := by simpa using hmt
      cases g with
      | one c =>
        simp only at hs
        split at hs <;> cases hs
        · refine inv_same (t := t) h ?_ ?_ (fun u hu => by simp [hu]) (fun u _ => rfl) ?_ ?_
            (fun _ _ => Iff.rfl) ?_ (fun _ _ _ => Iff.rfl)
          · funext d; simp [Low.eff, hm, hp]
          · funext d; simp [Low.waking, hm, hp]
          · simpa only [upd_same, LocP] using hl
          · simp [Pc.hasM, hm]
          · simpa only [upd_same, Pc.hasC, Sig.cv] using hct
        · rename_i v rest hw
          have e1 : s.eff = s.wl := by funext d; simp [Low.eff, hm, hp, setC]
          have w1 : s.waking = fun _ => none := by funext d; simp [Low.waking, hm, hp]
          have e2 : ({ s with wl := setC s.wl c rest, pc := upd s.pc t (.sWake c v l f) } :
              Low σ C K V).eff = setC s.wl c rest := by funext d; simp [Low.eff, hm, hp, setC]
          have w2 : ({ s with wl := setC s.wl c rest, pc := upd s.pc t (.sWake c v l f) } :
              Low σ C K V).waking = fun d => if d = c then some v else none := by funext d; simp [Low.waking, hm, hp]
          have hnd := h.nodup c
          rw [e1, hw, List.nodup_cons] at hnd
          refine ⟨fun u => ?_, fun u => ?_, fun u d => ?_, fun d => ?_, fun d u => ?_⟩
          · have hlu := h.loc u
            rw [e2, w2]
            rw [e1, w1] at hlu
            simp only
            by_cases hu : u = t
            · subst hu
              simp only [upd_same, LocP]
              simp only [e1, w1] at hl
              refine ⟨hl.1, fun d => ?_⟩
              have := hl.2 d; have := hl.2 c
              grind
            · simp only [upd_other _ _ hu]
              by_cases hv : u = v
              · subst hv
                have hc := (hct c).1 rfl
                obtain ⟨⟨k, hk⟩, hd⟩ := hlu.woken (c := c) (by rw [Ne, h.c u c]; grind) (Or.inr (by simp [hw]))
                simp only [hk, LocP] at hlu ⊢
                refine ⟨?_, fun d => ?_⟩
                · simp [hlu.1, hw]
                · have := hd d; grind
              · refine hlu.frame (fun d => ?_) (fun d => ?_) <;> grind
          · by_cases hu : u = t
            · subst hu; simp [Pc.hasM, hm]
            · simpa [hu] using h.m u
          · by_cases hu : u = t
            · subst hu; simpa [Pc.hasC, Sig.cv] using hct d
            · simpa [hu] using h.c u d
          · rw [e2]; have := h.nodup d; rw [e1] at this; grind
          · rw [e2, w2]; grind
      | all c =>
        cases hs
        refine inv_same (t := t) h ?_ ?_ (fun u hu => by simp [hu]) (fun u _ => rfl) ?_ ?_
          (fun _ _ => Iff.rfl) ?_ (fun _ _ _ => Iff.rfl)
        · funext d; simp [Low.eff, hm, hp]; rintro rfl; rfl
        · funext d; simp [Low.waking, hm, hp]
        · simpa only [upd_same, LocP] using hl
        · simp [Pc.hasM, hm]
        · simpa only [upd_same, Pc.hasC, Sig.cv] using hct
    case sWake c v l f =>
      have hm : s.mtx = some t := by simpa using hmt
      cases hs
      have e1 : s.eff = s.wl := by funext d; simp [Low.eff, hm, hp, setC]
      have w1 : s.waking = fun d => if d = c then some v else none := by funext d; simp [Low.waking, hm, hp]
      have e2 : ({ s with asleep := upd s.asleep v false, pc := upd s.pc t (.sRel c l f) } :
          Low σ C K V).eff = s.wl := by funext d; simp [Low.eff, hm, hp, setC]
      have w2 : ({ s with asleep := upd s.asleep v false, pc := upd s.pc t (.sRel c l f) } :
          Low σ C K V).waking = fun d => none := by funext d; simp [Low.waking, hm, hp]
      have hv := h.wake c v (by simp [w1])
      have hvt : v ≠ t := by rintro rfl; have := (hl.2 c).2; simp [w1] at this
      rw [e1] at hv
      refine ⟨fun u => ?_, fun u => ?_, fun u d => ?_, fun d => ?_, fun d u => ?_⟩
      · have hlu := h.loc u
        rw [e2, w2]
        rw [e1, w1] at hlu
        simp only
        by_cases hu : u = t
        · subst hu
          simp only [upd_same, LocP, upd_other _ _ (Ne.symm hvt)]
          simp only [e1, w1] at hl
          refine ⟨hl.1, fun d => ?_⟩
          have := hl.2 d; have := hl.2 c
          grind
        · simp only [upd_other _ _ hu]
          by_cases hv : u = v
          · subst hv
            have hc := (hct c).1 rfl
            obtain ⟨⟨k, hk⟩, hd⟩ := hlu.woken (c := c) (by rw [Ne, h.c u c]; grind) (Or.inl (by simp))
            simp only [hk, LocP, upd_same] at hlu ⊢
            refine ⟨?_, fun d => ?_⟩
            · simp; assumption
            · have := hd d; grind
          · simp only [upd_other _ _ hv]
            refine hlu.frame (fun d => ?_) (fun d => ?_) <;> grind
      · by_cases hu : u = t
        · subst hu; simp [Pc.hasM, hm]
        · simpa [hu] using h.m u
      · by_cases hu : u = t
        · subst hu; simpa [Pc.hasC, Sig.cv] using hct d
        · simpa [hu] using h.c u d
      · rw [e2]; have := h.nodup d; rw [e1] at this; grind
      · rw [e2, w2]; grind
    case sAll c ws l f =>
      have hm : s.mtx = some t := by simpa using hmt
      cases ws with
      | nil =>
        cases hs
        refine inv_same (t := t) h ?_ ?_ (fun u hu => by simp [hu]) (fun u _ => rfl) ?_ ?_
          (fun _ _ => Iff.rfl) ?_ (fun _ _ _ => Iff.rfl)
        · funext d; simp [Low.eff, hm, hp, setC]
        · funext d; simp [Low.waking, hm, hp]
        · simpa only [upd_same, LocP] using hl
        · simp [Pc.hasM, hm]
        · simpa only [upd_same, Pc.hasC] using hct
      | cons v ws =>
        cases hs
        have e1 : s.eff = setC s.wl c (v :: ws) := by funext d; simp [Low.eff, hm, hp, setC]
        have w1 : s.waking = fun d => none := by funext d; simp [Low.waking, hm, hp]
        have e2 : ({ s with asleep := upd s.asleep v false, pc := upd s.pc t (.sAll c ws l f) } :
            Low σ C K V).eff = setC s.wl c ws := by funext d; simp [Low.eff, hm, hp, setC]
        have w2 : ({ s with asleep := upd s.asleep v false, pc := upd s.pc t (.sAll c ws l f) } :
            Low σ C K V).waking = fun d => none := by funext d; simp [Low.waking, hm, hp]
        have hnd := h.nodup c
        rw [e1, setC_same, List.nodup_cons] at hnd
        have hvt : v ≠ t := by rintro rfl; have := (hl.2 c).1; simp [e1] at this
        refine ⟨fun u => ?_, fun u => ?_, fun u d => ?_, fun d => ?_, fun d u => ?_⟩
        · have hlu := h.loc u
          rw [e2, w2]
          rw [e1, w1] at hlu
          simp only
          by_cases hu : u = t
          · subst hu
            simp only [upd_same, LocP, upd_other _ _ (Ne.symm hvt)]
            simp only [e1, w1] at hl
            refine ⟨hl.1, fun d => ?_⟩
            have := hl.2 d; have := hl.2 c
            grind
          · simp only [upd_other _ _ hu]
            by_cases hv : u = v
            · subst hv
              have hc := (hct c).1 rfl
              obtain ⟨⟨k, hk⟩, hd⟩ := hlu.woken (c := c) (by rw [Ne, h.c u c]; grind) (Or.inr (by simp))
              simp only [hk, LocP, upd_same] at hlu ⊢
              refine ⟨?_, fun d => ?_⟩
              · simp; exact hnd.1
              · have := hd d; grind
            · simp only [upd_other _ _ hv]
              refine hlu.frame (fun d => ?_) (fun d => ?_) <;> grind
        · by_cases hu : u = t
          · subst hu; simp [Pc.hasM, hm]
          · simpa [hu] using h.m u
        · by_cases hu : u = t
          · subst hu; simpa [Pc.hasC, Sig.cv] using hct d
          · simpa [hu] using h.c u d
        · rw [e2]; have := h.nodup d; rw [e1] at this; grind
        · rw [e2, w2]; grind
    case sRel c l f =>
      have hm : s.mtx = some t := by simpa using hmt
      cases hs
      refine inv_same (t := t) h ?_ ?_ (fun u hu => by simp [hu]) (fun u _ => rfl) ?_ ?_
        (fun _ _ => Iff.rfl) ?_ ?_
      · funext d; simp [Low.eff, hm, hp]
      · funext d; simp [Low.waking, hm, hp]
      · simpa only [upd_same, LocP] using hl
      · simp [Pc.hasM, hm]
      · intro d; simp only [upd_same, Pc.hasC]; have := hct d; grind
      · intro u d hu; have := hct c; grind
    case pPush c k =>
      have hm : s.mtx = some t := by simpa using hmt
      cases hs
      have e1 : s.eff = s.wl := by funext d; simp [Low.eff, hm, hp, setC]
      have w1 : s.waking = fun d => none := by funext d; simp [Low.waking, hm, hp]
      have e2 : ({ s with wl := setC s.wl c (s.wl c ++ [t]), pc := upd s.pc t (.pUnlk c k) } :
          Low σ C K V).eff = setC s.wl c (s.wl c ++ [t]) := by funext d; simp [Low.eff, hm, hp, setC]
      have w2 : ({ s with wl := setC s.wl c (s.wl c ++ [t]), pc := upd s.pc t (.pUnlk c k) } :
          Low σ C K V).waking = fun d => none := by funext d; simp [Low.waking, hm, hp]
      have hnd := h.nodup c
      rw [e1] at hnd hl
      refine ⟨fun u => ?_, fun u => ?_, fun u d => ?_, fun d => ?_, fun d u => ?_⟩
      · have hlu := h.loc u
        rw [e2, w2]
        rw [e1, w1] at hlu
        simp only
        by_cases hu : u = t
        · subst hu
          simp only [upd_same, LocP]
          refine ⟨by simp, hl.1, fun d => ?_, by simp⟩
          have := hl.2 d
          grind
        · simp only [upd_other _ _ hu]
          refine hlu.frame (fun d => ?_) (fun d => ?_) <;> grind
      · by_cases hu : u = t
        · subst hu; simp [Pc.hasM, hm]
        · simpa [hu] using h.m u
      · by_cases hu : u = t
        · subst hu; simpa [Pc.hasC, Sig.cv] using hct d
        · simpa [hu] using h.c u d
      · rw [e2]; have := h.nodup d; rw [e1] at this
        have := (hl.2 c).1
        by_cases hd : d = c
        · subst hd
          rw [setC_same, List.nodup_append]
          refine ⟨hnd, by simp, ?_⟩
          intro x hx y hy; simp at hy; subst hy; rintro rfl; exact this hx
        · simpa [hd] using h.nodup d |> fun x => by rw [e1] at x; exact x
      · rw [e2, w2]; grind
    case pUnlk c k =>
      have hm : s.mtx = some t := by simpa using hmt
      cases hs
      refine inv_same (t := t) h ?_ ?_ (fun u hu => by simp [hu]) (fun u _ => rfl) ?_ ?_
        ?_ ?_ (fun _ _ _ => Iff.rfl)
      · funext d; simp [Low.eff, hm, hp]
      · funext d; simp [Low.waking, hm, hp]
      · simpa only [upd_same, LocP] using hl
      · simp [Pc.hasM]
      · intro u hu; simp [hm, Ne.symm hu]
      · simpa only [upd_same, Pc.hasC] using hct
    all_goals
      have hm : s.mtx ≠ some t := fun e => by have := hmt.2 e; cases this
      have hsm : s'.eff = s.eff ∧ s'.waking = s.waking := by
        (try split at hs) <;> cases hs
        all_goals exact eff_other rfl hm (fun u hu => by simp [hu]) rfl
    case pSleep c k =>
      cases hs
      refine inv_same (t := t) h hsm.1 hsm.2 (fun u hu => by simp [hu]) (fun u hu => by simp [hu]) ?_ ?_
        (fun _ _ => Iff.rfl) ?_ (fun _ _ _ => Iff.rfl)
      · simp only [upd_same, LocP, true_and]; exact ⟨hl.1, hl.2.2⟩
      · simp [Pc.hasM, hm]
      · simpa only [upd_same, Pc.hasC] using hct
    case pRel c k =>
      cases hs
      refine inv_same (t := t) h hsm.1 hsm.2 (fun u hu => by simp [hu]) (fun u hu => rfl) ?_ ?_
        (fun _ _ => Iff.rfl) ?_ ?_
      · simp only [upd_same, LocP]; grind
      · simp [Pc.hasM, hm]
      · intro d; simp only [upd_same, Pc.hasC]; have := hct d; grind
      · intro u d hu; have := hct c; grind
    case pYield c k =>
      split at hs <;> cases hs
      rename_i hna
      refine inv_same (t := t) h hsm.1 hsm.2 (fun u hu => by simp [hu]) (fun u hu => rfl) ?_ ?_
        (fun _ _ => Iff.rfl) ?_ (fun _ _ _ => Iff.rfl)
      · simp only [upd_same, LocP]; grind
      · simp [Pc.hasM, hm]
      · simpa only [upd_same, Pc.hasC] using hct

end
end Verif.Monitor
