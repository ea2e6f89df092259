import Verif.Sync.Cv

/-! # Invariant and simulation of co_condition_variable (helper lemmas) -/

namespace Verif.Cv
open CvSpec

/-- The waiters that a running notify_all has not woken yet. (Concerns co_condition_variable.h:29-90, co_ctx.cpp:181-207.) -/
def St.wlE (s : St) : List Tid :=
  match s.cv with
  | some u => (match s.pc u with | .naWake l => l | _ => s.wl)
  | none => s.wl

/-- The waiter a running notify_one has popped and not woken yet. (Concerns co_condition_variable.h:29-90, co_ctx.cpp:181-207.) -/
def St.waking (s : St) : Option Tid :=
  match s.cv with
  | some u => (match s.pc u with | .nWake v => some v | _ => none)
  | none => none

/-- What is true of coroutine `t` at its program point. (Concerns co_condition_variable.h:29-90, co_ctx.cpp:181-207.) -/
def Loc (s : St) (t : Tid) : Prop :=
  match s.pc t with
  | .out | .nCv _ | .nGo _ | .nWake _ | .naWake _ | .nRel =>
    t ∉ s.wlE ∧ s.asleep t = false ∧ s.armed t = false ∧ s.waking ≠ some t
  | .lkAcq =>
    t ∉ s.wlE ∧ s.asleep t = false ∧ s.armed t = false ∧ s.waking ≠ some t ∧ s.mtx ≠ some t
  | .wTimer k =>
    t ∉ s.wlE ∧ s.asleep t = false ∧ s.armed t = false ∧ s.waking ≠ some t ∧ s.mtx = some t ∧
      k.timed = true
  | .wCv k | .wPush k | .wEval k | .wRet k =>
    t ∉ s.wlE ∧ s.asleep t = false ∧ s.waking ≠ some t ∧ s.mtx = some t ∧
      (s.armed t = true → k.timed = true) ∧ (k.timed = true → s.armed t = !s.fired t)
  | .wUnlk k =>
    t ∈ s.wlE ∧ s.asleep t = false ∧ s.waking ≠ some t ∧ s.mtx = some t ∧
      (s.armed t = true → k.timed = true) ∧ (k.timed = true → s.armed t = !s.fired t) ∧
      s.wl.getLast? = some t
  | .wSleep k =>
    t ∈ s.wlE ∧ s.asleep t = false ∧ s.waking ≠ some t ∧ s.mtx ≠ some t ∧
      (s.armed t = true → k.timed = true) ∧ (k.timed = true → s.armed t = !s.fired t)
  | .wRel k =>
    t ∈ s.wlE ∧ s.asleep t = true ∧ s.waking ≠ some t ∧ s.mtx ≠ some t ∧
      (s.armed t = true → k.timed = true) ∧ (k.timed = true → s.armed t = !s.fired t)
  | .wYield k =>
    (s.asleep t = true ↔ t ∈ s.wlE ∨ s.waking = some t) ∧ s.mtx ≠ some t ∧
      (s.armed t = true → k.timed = true) ∧ (k.timed = true → s.armed t = !s.fired t)
  | .wLock k =>
    t ∉ s.wlE ∧ s.asleep t = false ∧ s.waking ≠ some t ∧ s.mtx ≠ some t ∧
      (s.armed t = true → k.timed = true) ∧ (k.timed = true → s.armed t = !s.fired t)

/-- The invariant. (Concerns co_condition_variable.h:29-90, co_ctx.cpp:181-207.) -/
structure Inv (s : St) : Prop where
  loc : ∀ t, Loc s t
  cv : ∀ t, (s.pc t).cv = true ↔ s.cv = some t
  nodup : s.wlE.Nodup
  wake : ∀ u, s.waking = some u → u ∉ s.wlE
  fire : ∀ u, s.fired u = true → s.timeout = true

theorem inv_init : Inv St.init := by
  constructor <;> simp [St.init, Loc, Pc.cv, St.wlE, St.waking]

theorem Loc.frame {s s' : St} {u : Tid} (h : Loc s u) (hp : s'.pc u = s.pc u)
    (ha : s'.asleep u = s.asleep u) (hr : s'.armed u = s.armed u) (hf : s'.fired u = s.fired u)
    (hm : s'.mtx = some u ↔ s.mtx = some u) (hw : u ∈ s'.wlE ↔ u ∈ s.wlE)
    (hk : s'.waking = some u ↔ s.waking = some u)
    (hl : s.cv = some u → s'.wl = s.wl) (hcv : (s.pc u).cv = true ↔ s.cv = some u) : Loc s' u := by
  simp only [Loc, hp, ha, hr, hf, hm, hw, hk, ne_eq] at *
  cases hpc : s.pc u <;> simp only [hpc, Pc.cv] at h hcv ⊢ <;> grind

theorem wlE_of_cv {s : St} {u : Tid} (h : s.cv = some u) :
    s.wlE = (match s.pc u with | .naWake l => l | _ => s.wl) := by
  simp [St.wlE, h]

theorem waking_of_cv {s : St} {u : Tid} (h : s.cv = some u) :
    s.waking = (match s.pc u with | .nWake v => some v | _ => none) := by
  simp [St.waking, h]

theorem wlE_other {s s' : St} {t : Tid} (hcv : s'.cv = s.cv) (hne : s.cv ≠ some t)
    (hpc : ∀ u, u ≠ t → s'.pc u = s.pc u) (hwl : s'.wl = s.wl) :
    s'.wlE = s.wlE ∧ s'.waking = s.waking := by
  simp only [St.wlE, St.waking, hcv, hwl]
  cases h : s.cv with
  | none => simp
  | some u =>
    have : u ≠ t := by rintro rfl; exact hne h
    simp [hpc u this]

theorem inv_step (s : St) (a : Act) (s' : St) (es : List Ev) (h : Inv s)
    (hs : step s a = some (s', es)) : Inv s' := by
  have hI := h
  obtain ⟨hl, h1, h2, h3, h4⟩ := h
  cases a with
  | callLock t | callWait t k | callNotify t all =>
    simp only [step, St.goto] at hs
    split at hs <;> try cases hs
    have hlt := hl t
    rename_i hc
    have hcv : s.cv ≠ some t := by have := h1 t; grind [Pc.cv]
    have hsame := fun p => wlE_other (s := s) (s' := { s with pc := upd s.pc t p }) (t := t) rfl hcv
      (fun u hu => by simp [hu]) rfl
    refine ⟨fun u => ?_, fun u => ?_, ?_, ?_, h4⟩
    · by_cases hu : u = t
      · subst hu
        simp only [Loc, (hsame _).1, (hsame _).2, upd_same] at hlt ⊢
        grind
      · exact (hl u).frame (by simp [hu]) rfl rfl rfl Iff.rfl (by rw [(hsame _).1])
          (by rw [(hsame _).2]) (fun _ => rfl) (h1 u)
    · grind [Pc.cv]
    · rw [(hsame _).1]; exact h2
    · rw [(hsame _).1, (hsame _).2]; exact h3
  | callUnlock t =>
    simp only [step, St.goto] at hs
    split at hs <;> try cases hs
    rename_i hc
    refine ⟨fun u => ?_, h1, h2, h3, h4⟩
    by_cases hu : u = t
    · subst hu
      have := hl u
      simp only [Loc, hc.1] at this ⊢
      exact this
    · refine (hl u).frame rfl rfl rfl rfl (by simp only [hc.2]; grind) Iff.rfl Iff.rfl (fun _ => rfl) (h1 u)
  | fire t =>
    simp only [step] at hs
    split at hs <;> try cases hs
    rename_i hc
    have hw : s.wlE = s.wl := by simp [St.wlE, hc.2]
    have hk : s.waking = none := by simp [St.waking, hc.2]
    refine ⟨fun u => ?_, h1, ?_, ?_, fun _ _ => rfl⟩
    · by_cases hu : u = t
      · subst hu
        have hlu := hl u
        have h1u := h1 u
        simp only [Loc, St.wlE, St.waking, hc.2] at hlu ⊢
        cases hpc : s.pc u <;> simp only [hpc, Pc.cv] at hlu h1u ⊢ <;> grind
      · refine (hl u).frame rfl (by simp [hu]) (by simp [hu]) (by simp [hu]) Iff.rfl ?_ ?_ ?_ (h1 u)
        · simp only [St.wlE, hc.2, List.mem_filter]; simp [hu]
        · simp [St.waking, hc.2]
        · intro h; simp [hc.2] at h
    · simp only [St.wlE, hc.2]; rw [hw] at h2; exact h2.filter _
    · simp [St.waking, hc.2]
  | run t b =>
    have hlt := hl t
    have h1t := h1 t
    simp only [step, runStep] at hs
    cases hp : s.pc t
    all_goals simp only [hp, St.goto] at hs h1t
    all_goals simp only [Loc, hp] at hlt
    case nGo all =>
      have hc : s.cv = some t := h1t.1 rfl
      have hw : s.wlE = s.wl := by simp [St.wlE, hc, hp]
      have hk : s.waking = none := by simp [St.waking, hc, hp]
      cases all
      · simp only at hs
        split at hs <;> cases hs
        · rename_i hwl
          refine ⟨fun u => ?_, fun u => ?_, ?_, ?_, h4⟩
          · by_cases hu : u = t
            · subst hu
              simp only [Loc, St.wlE, St.waking, upd_same, hc] at hlt ⊢
              grind
            · refine (hl u).frame (by simp [hu]) rfl rfl rfl Iff.rfl ?_ ?_ (fun _ => rfl) (h1 u)
              · rw [hw]; simp [St.wlE, hc]
              · rw [hk]; simp [St.waking, hc]
          · have := h1 u; grind [Pc.cv]
          · simp [St.wlE, hc, hwl]
          · simp [St.waking, hc]
        · rename_i v rest hwl
          rw [hw, hwl] at h2
          refine ⟨fun u => ?_, fun u => ?_, ?_, ?_, h4⟩
          · by_cases hu : u = t
            · subst hu
              simp only [Loc, St.wlE, St.waking, upd_same, hc, hp, hwl] at hlt ⊢
              grind
            · by_cases huv : u = v
              · subst huv
                have hlu := hl u
                have h1u := h1 u
                simp only [Loc, hw, hk, hwl, upd_other _ _ hu] at hlu ⊢
                simp only [St.wlE, St.waking, hc, upd_same]
                cases hpu : s.pc u <;> simp only [hpu, Pc.cv] at hlu h1u ⊢ <;> grind
              · refine (hl u).frame (by simp [hu]) rfl rfl rfl Iff.rfl ?_ ?_ ?_ (h1 u)
                · rw [hw, hwl]; simp [St.wlE, hc, huv]
                · rw [hk]; simp [St.waking, hc]; exact fun h => huv h.symm
                · intro h; grind
          · have := h1 u; grind [Pc.cv]
          · simp only [St.wlE, hc, upd_same]; grind
          · simp only [St.wlE, St.waking, hc, upd_same]; grind
      · simp only at hs
        cases hs
        refine ⟨fun u => ?_, fun u => ?_, ?_, ?_, h4⟩
        · by_cases hu : u = t
          · subst hu
            simp only [Loc, St.wlE, St.waking, upd_same, hc, hp] at hlt ⊢
            grind
          · refine (hl u).frame (by simp [hu]) rfl rfl rfl Iff.rfl ?_ ?_ (fun _ => rfl) (h1 u)
            · rw [hw]; simp [St.wlE, hc]
            · rw [hk]; simp [St.waking, hc]
        · have := h1 u; grind [Pc.cv]
        · simp only [St.wlE, hc, upd_same]; rw [hw] at h2; exact h2
        · simp [St.waking, hc]
    case naWake l =>
      have hc : s.cv = some t := h1t.1 rfl
      have hw : s.wlE = l := by simp [St.wlE, hc, hp]
      have hk : s.waking = none := by simp [St.waking, hc, hp]
      cases l with
      | nil =>
        simp only at hs
        cases hs
        refine ⟨fun u => ?_, fun u => ?_, ?_, ?_, h4⟩
        · by_cases hu : u = t
          · subst hu
            simp only [Loc, St.wlE, St.waking, upd_same, hc, hp] at hlt ⊢
            grind
          · refine (hl u).frame (by simp [hu]) rfl rfl rfl Iff.rfl ?_ ?_ ?_ (h1 u)
            · rw [hw]; simp [St.wlE, hc]
            · rw [hk]; simp [St.waking, hc]
            · intro h; grind
        · have := h1 u; grind [Pc.cv]
        · simp [St.wlE, hc]
        · simp [St.waking, hc]
      | cons v l =>
        simp only at hs
        cases hs
        rw [hw] at h2
        have hvt : v ≠ t := by grind
        refine ⟨fun u => ?_, fun u => ?_, ?_, ?_, h4⟩
        · by_cases hu : u = t
          · subst hu
            simp only [Loc, St.wlE, St.waking, upd_same, hc, hp] at hlt ⊢
            grind
          · by_cases huv : u = v
            · subst huv
              have hlu := hl u
              have h1u := h1 u
              simp only [Loc, hw, hk, upd_other _ _ hu] at hlu ⊢
              simp only [St.wlE, St.waking, hc, upd_same]
              cases hpu : s.pc u <;> simp only [hpu, Pc.cv] at hlu h1u ⊢ <;> grind
            · refine (hl u).frame (by simp [hu]) (by simp [huv]) rfl rfl Iff.rfl ?_ ?_ (fun _ => rfl) (h1 u)
              · rw [hw]; simp [St.wlE, hc, huv]
              · rw [hk]; simp [St.waking, hc]
        · have := h1 u; grind [Pc.cv]
        · simp only [St.wlE, hc, upd_same]; grind
        · simp [St.waking, hc]
    case nWake v =>
      have hc : s.cv = some t := h1t.1 rfl
      have hw : s.wlE = s.wl := by simp [St.wlE, hc, hp]
      have hk : s.waking = some v := by simp [St.waking, hc, hp]
      cases hs
      have hvt : v ≠ t := by grind
      have hvw := h3 v hk
      refine ⟨fun u => ?_, fun u => ?_, ?_, ?_, h4⟩
      · by_cases hu : u = t
        · subst hu
          simp only [Loc, St.wlE, St.waking, upd_same, hc, hp] at hlt ⊢
          grind
        · by_cases huv : u = v
          · subst huv
            have hlu := hl u
            have h1u := h1 u
            simp only [Loc, hw, hk, upd_other _ _ hu] at hlu ⊢
            simp only [St.wlE, St.waking, hc, upd_same]
            cases hpu : s.pc u <;> simp only [hpu, Pc.cv] at hlu h1u ⊢ <;> grind
          · refine (hl u).frame (by simp [hu]) (by simp [huv]) rfl rfl Iff.rfl ?_ ?_ (fun _ => rfl) (h1 u)
            · rw [hw]; simp [St.wlE, hc]
            · rw [hk]; simp [St.waking, hc]; exact fun h => huv h.symm
      · have := h1 u; grind [Pc.cv]
      · simp only [St.wlE, hc, upd_same]; rw [hw] at h2; exact h2
      · simp [St.waking, hc]
    case wCv k | wPush k | wUnlk k | wSleep k | wRel k | nCv all | nRel =>
      all_goals
        have hc : s.cv = none ∨ s.cv = some t := by simp only [Pc.cv] at h1t; grind
        have hw : s.wlE = s.wl := by
          rcases hc with hc | hc <;> simp [St.wlE, hc, hp]
        have hk : s.waking = none := by
          rcases hc with hc | hc <;> simp [St.waking, hc, hp]
        rw [hw] at hlt h2
        rw [hk] at hlt
        (try split at hs) <;> (try cases hs)
        all_goals
          refine ⟨fun u => ?_, fun u => ?_, ?_, ?_, h4⟩
          · by_cases hu : u = t
            · subst hu
              rcases hc with hc | hc <;> simp only [Loc, St.wlE, St.waking, upd_same, hc] at hlt ⊢ <;>
                grind [Pc.cv]
            · have h1u := h1 u
              refine (hl u).frame (by simp [hu]) (by simp [hu]) (by simp [hu]) (by simp [hu]) ?_ ?_ ?_
                ?_ h1u
              · grind
              · rw [hw]; rcases hc with hc | hc <;> simp [St.wlE, hc, hu]
              · rw [hk]; rcases hc with hc | hc <;> simp [St.waking, hc]
              · intro h; grind
          · have := h1 u; grind [Pc.cv]
          · rcases hc with hc | hc <;> simp only [St.wlE, hc, upd_same] <;> grind [Pc.cv]
          · rcases hc with hc | hc <;> simp [St.waking, hc]
    all_goals
      have hcv : s.cv ≠ some t := by simp only [Pc.cv] at h1t; grind
      have hsm : s'.wlE = s.wlE ∧ s'.waking = s.waking := by
        (repeat' split at hs) <;> (try cases hs)
        all_goals exact wlE_other rfl hcv (fun u hu => by simp [hu]) rfl
      (repeat' split at hs) <;> (try cases hs)
      all_goals
        refine ⟨fun u => ?_, fun u => ?_, ?_, ?_, fun u => ?_⟩
        · by_cases hu : u = t
          · subst hu
            simp only [Loc, upd_same] at hlt ⊢
            grind
          · have h1u := h1 u
            refine (hl u).frame (by simp [hu]) (by simp [hu]) (by simp [hu]) (by simp [hu]) ?_ ?_ ?_
              (fun _ => rfl) h1u
            · grind
            · rw [hsm.1]
            · rw [hsm.2]
        · have := h1 u; grind [Pc.cv]
        · rw [hsm.1]; exact h2
        · rw [hsm.1, hsm.2]; exact h3
        · have := h4 u; grind

end Verif.Cv
