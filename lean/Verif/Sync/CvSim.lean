import Verif.Sync.CvInv

/-! # co_condition_variable: simulation by the specification (helper lemmas) -/

namespace Verif.Cv
open CvSpec

/-- The coroutines that wait, as the specification sees it. (Concerns co_condition_variable.h:29-90, co_ctx.cpp:181-207.) -/
def St.spec (s : St) : List Tid :=
  match s.cv with
  | some u => (match s.pc u with | .naWake _ => [] | .wUnlk _ => s.wl.dropLast | _ => s.wl)
  | none => s.wl

/-- Program points between releasing the mutex and noticing the wake-up. (Concerns co_condition_variable.h:29-90, co_ctx.cpp:181-207.) -/
def Pc.waits : Pc → Bool
  | .wSleep _ | .wRel _ | .wYield _ => true
  | _ => false

/-- Proof device: the simulation relation. (Concerns co_condition_variable.h:29-90, co_ctx.cpp:181-207.) -/
structure R (s : St) (q : Q) : Prop where
  inv : Inv s
  queue : q.queue = s.spec
  mtx : q.mtx = s.mtx
  woken : ∀ t, q.woken t = true ↔ (s.pc t).waits = true ∧ t ∉ s.spec

theorem R_init : R St.init Q.init :=
  ⟨inv_init, rfl, rfl, by simp [St.init, Q.init, Pc.waits]⟩

theorem spec_sub {s : St} {t : Tid} (h : t ∈ s.spec) : t ∈ s.wlE := by
  simp only [St.spec, St.wlE] at *
  cases hc : s.cv with
  | none => simpa [hc] using h
  | some u =>
    simp only [hc] at h ⊢
    cases hp : s.pc u <;> simp only [hp] at h ⊢
    all_goals first | exact h | exact (List.dropLast_subset _) h | exact absurd h List.not_mem_nil

theorem spec_other {s s' : St} {t : Tid} (hcv : s'.cv = s.cv) (hne : s.cv ≠ some t)
    (hpc : ∀ u, u ≠ t → s'.pc u = s.pc u) (hwl : s'.wl = s.wl) : s'.spec = s.spec := by
  simp only [St.spec, hcv, hwl]
  cases h : s.cv with
  | none => simp
  | some u =>
    have : u ≠ t := by rintro rfl; exact hne h
    simp [hpc u this]

/-- Who is registered while a notifier holds `cv_lock__` (or nobody does) waits. -/
theorem waits_of_mem {s : St} (h : Inv s) {u : Tid} (hu : u ∈ s.wlE)
    (hc : s.cv ≠ some u) : (s.pc u).waits = true := by
  have hl := h.loc u
  have h1 := h.cv u
  simp only [Loc] at hl
  cases hp : s.pc u <;> simp only [hp, Pc.cv, Pc.waits] at hl h1 ⊢ <;> grind

theorem step_sim (s : St) (a : Act) (s' : St) (es : List Ev) (q : Q) (hR : R s q)
    (hs : step s a = some (s', es)) :
    ∃ q', accepts acc q es = some q' ∧ R s' q' := by
  have hI' := inv_step s a s' es hR.inv hs
  obtain ⟨hI, hq, hm, hw⟩ := hR
  obtain ⟨hl, h1, h2, h3, h4⟩ := id hI
  cases a with
  | callLock t | callWait t k | callNotify t all =>
    simp only [step, St.goto] at hs
    split at hs <;> try cases hs
    rename_i hc
    have hcv : s.cv ≠ some t := by have := h1 t; grind [Pc.cv]
    have hsm := fun p => spec_other (s := s) (s' := { s with pc := upd s.pc t p }) (t := t) rfl hcv
      (fun u hu => by simp [hu]) rfl
    refine ⟨q, rfl, hI', ?_, hm, fun u => ?_⟩
    · rw [hq]; exact (hsm _).symm
    · rw [hw, hsm]
      by_cases hu : u = t
      · subst hu; simp only [upd_same]; grind [Pc.waits]
      · simp [hu]
  | callUnlock t =>
    simp only [step] at hs
    split at hs <;> try cases hs
    rename_i hc
    exact ⟨{ q with mtx := none }, by simp [accepts, acc, hm, hc.2], hI', hq, rfl, hw⟩
  | fire t =>
    simp only [step] at hs
    split at hs <;> try cases hs
    rename_i hc
    have hsp : s.spec = s.wl := by simp [St.spec, hc.2]
    have hwl : s.wlE = s.wl := by simp [St.wlE, hc.2]
    rw [hsp] at hq
    rw [hwl] at h2
    have hfe : s.wl.filter (fun u => decide (u ≠ t)) = s.wl.erase t := by
      rw [List.Nodup.erase_eq_filter h2]; congr; funext u; by_cases h : u = t <;> simp [h]
    by_cases hmem : t ∈ s.wl
    · have hwt := waits_of_mem hI (u := t) (by rw [hwl]; exact hmem) (by simp [hc.2])
      refine ⟨{ q with queue := q.queue.erase t, woken := upd q.woken t true },
        by simp [accepts, acc, hq, hmem], hI', ?_, hm, fun u => ?_⟩
      · simp only [St.spec, hc.2, hfe, hq]
      · by_cases hu : u = t
        · subst hu
          simp [St.spec, hc.2, hwt, hfe, List.Nodup.mem_erase_iff h2]
        · simp [hu, hw, St.spec, hc.2, hfe, List.Nodup.mem_erase_iff h2]
    · refine ⟨q, by simp [accepts, acc, hq, hmem], hI', ?_, hm, fun u => ?_⟩
      · simp only [St.spec, hc.2, hfe, hq, List.erase_of_not_mem hmem]
      · simp only [hw, St.spec, hc.2, hfe, List.erase_of_not_mem hmem]
  | run t b =>
    have hlt := hl t
    have h1t := h1 t
    simp only [step, runStep] at hs
    cases hp : s.pc t
    all_goals simp only [hp, St.goto] at hs h1t
    all_goals simp only [Loc, hp] at hlt
    case wUnlk k =>
      cases hs
      have hc : s.cv = some t := h1t.1 rfl
      have hsp : s.spec = s.wl.dropLast := by simp [St.spec, hc, hp]
      have hwl : s.wlE = s.wl := by simp [St.wlE, hc, hp]
      have hlast : s.wl = s.wl.dropLast ++ [t] := by
        have := hlt.2.2.2.2.2.2
        obtain ⟨l, hx⟩ := List.getLast?_eq_some_iff.1 this
        simp [hx]
      have hnt : t ∉ s.wl.dropLast := by
        rw [hwl, hlast] at h2; grind
      have hnw : q.woken t = false := by
        have := hw t; simp only [hp, Pc.waits] at this; grind
      refine ⟨{ q with queue := q.queue ++ [t], mtx := none },
        by simp [accepts, acc, hm, hlt.2.2.2.1, hq, hsp, hnt, hnw], hI', ?_, rfl, fun u => ?_⟩
      · rw [hq, hsp]; simp only [St.spec, hc, upd_same]; exact hlast.symm
      · rw [hw, hsp]; simp only [St.spec, hc, upd_same]
        by_cases hu : u = t
        · subst hu
          simp only [upd_same, hp, Pc.waits]
          have : u ∈ s.wl := by rw [hlast]; simp
          simp [this]
        · have : u ∈ s.wl ↔ u ∈ s.wl.dropLast := by
            have h5 : u ∈ s.wl ↔ u ∈ s.wl.dropLast ++ [t] := by rw [← hlast]
            rw [h5]; simp [hu]
          simp [hu, this]
    case nGo all =>
      have hc : s.cv = some t := h1t.1 rfl
      have hsp : s.spec = s.wl := by simp [St.spec, hc, hp]
      have hwl : s.wlE = s.wl := by simp [St.wlE, hc, hp]
      have hwt : ∀ u ∈ s.wl, (s.pc u).waits = true := by
        intro u hu
        refine waits_of_mem hI (by rw [hwl]; exact hu) ?_
        rw [hc]; intro h; injection h with h; subst h; rw [hwl] at hlt; exact hlt.1 hu
      rw [hsp] at hq
      cases all
      · simp only at hs
        split at hs <;> cases hs
        · rename_i hwe
          refine ⟨q, by simp [accepts, acc, hq, hwe], hI', ?_, hm, fun u => ?_⟩
          · simp [St.spec, hc, hq]
          · rw [hw, hsp]
            simp only [St.spec, hc, upd_same]
            by_cases hu : u = t
            · subst hu; simp [hp, Pc.waits]
            · simp [hu]
        · rename_i v rest hwe
          have hvt : v ≠ t := by rw [hwl] at hlt; grind
          refine ⟨{ q with queue := rest, woken := upd q.woken v true },
            by simp [accepts, acc, hq, hwe], hI', ?_, hm, fun u => ?_⟩
          · simp [St.spec, hc]
          · simp only [St.spec, hc, upd_same]
            have hnod : v ∉ rest := by rw [hwl, hwe] at h2; grind
            by_cases huv : u = v
            · subst huv
              simp [hvt, hnod, hwt u (by simp [hwe])]
            · rw [upd_other _ _ huv, hw, hsp, hwe]
              by_cases hu : u = t
              · subst hu; simp [hp, Pc.waits]
              · simp [hu, huv]
      · simp only at hs
        cases hs
        refine ⟨{ q with queue := [], woken := fun u => q.woken u || decide (u ∈ q.queue) },
          by simp [accepts, acc], hI', ?_, hm, fun u => ?_⟩
        · simp [St.spec, hc]
        · simp only [St.spec, hc, upd_same, Bool.or_eq_true, hw, hsp, hq, decide_eq_true_eq]
          by_cases hu : u = t
          · subst hu
            rw [hwl] at hlt
            simp [hp, Pc.waits, hlt.1]
          · have := hwt u
            simp [hu]; grind
    case naWake l =>
      have hc : s.cv = some t := h1t.1 rfl
      have hsp : s.spec = [] := by simp [St.spec, hc, hp]
      have hnt : (s.pc t).waits = false := by simp [hp, Pc.waits]
      cases l with
      | nil =>
        cases hs
        refine ⟨q, rfl, hI', ?_, hm, fun u => ?_⟩
        · rw [hq, hsp]; simp [St.spec, hc]
        · rw [hw, hsp]; simp only [St.spec, hc, upd_same]
          by_cases hu : u = t
          · subst hu; simp [hp, Pc.waits]
          · simp [hu]
      | cons v l =>
        cases hs
        refine ⟨q, rfl, hI', ?_, hm, fun u => ?_⟩
        · rw [hq, hsp]; simp [St.spec, hc]
        · rw [hw, hsp]; simp only [St.spec, hc, upd_same]
          by_cases hu : u = t
          · subst hu; simp [hp, Pc.waits]
          · simp [hu]
    case wCv k | wPush k | wSleep k | wRel k | nCv all | nRel | nWake v =>
      all_goals
        have hc : s.cv = none ∨ s.cv = some t := by simp only [Pc.cv] at h1t; grind
        have hsp : s.spec = s.wl := by
          rcases hc with hc | hc <;> simp [St.spec, hc, hp]
        rw [hsp] at hq
        (try split at hs) <;> (try cases hs)
        all_goals
          refine ⟨q, rfl, hI', ?_, hm, fun u => ?_⟩
          · rw [hq]; rcases hc with hc | hc <;> first | (simp [St.spec, hc]; done) | grind [Pc.cv]
          · rw [hw, hsp]
            rcases hc with hc | hc <;> simp only [St.spec, hc, upd_same] <;>
            by_cases hu : u = t
            all_goals first
              | (subst hu; simp [hp, Pc.waits]; done)
              | (simp [hu]; done)
              | grind [Pc.cv]
    all_goals
      have hcv : s.cv ≠ some t := by simp only [Pc.cv] at h1t; grind
      have hsm : s'.spec = s.spec := by
        (repeat' split at hs) <;> (try cases hs)
        all_goals exact spec_other rfl hcv (fun u hu => by simp [hu]) rfl
      have hwk : ∀ p, p.waits = false → (s.pc t).waits = false → ∀ u, q.woken u = true ↔
          (upd s.pc t p u).waits = true ∧ u ∉ s.spec := by
        intro p hpw hpt u
        rw [hw]
        by_cases hu : u = t
        · subst hu; simp [hpw, hpt]
        · simp [hu]
    case wYield k =>
      split at hs <;> cases hs
      rename_i hasl
      have hnt : t ∉ s.spec := fun h => by
        have := spec_sub h
        grind
      refine ⟨{ q with woken := upd q.woken t false }, ?_, hI', by rw [hsm]; exact hq, hm, fun u => ?_⟩
      · have := (hw t).2 ⟨by simp [hp, Pc.waits], hnt⟩
        simp [accepts, acc, this]
      · rw [hsm]
        by_cases hu : u = t
        · subst hu; simp [Pc.waits]
        · simp [hu, hw]
    case lkAcq =>
      split at hs <;> cases hs
      rename_i hmn
      refine ⟨{ q with mtx := some t }, by simp [accepts, acc, hm, hmn], hI', by rw [hsm]; exact hq, rfl, ?_⟩
      rw [hsm]; exact hwk _ rfl (by simp [hp, Pc.waits])
    case wLock k =>
      split at hs <;> cases hs
      rename_i hmn
      refine ⟨{ q with mtx := some t }, by simp [accepts, acc, hm, hmn], hI', by rw [hsm]; exact hq, rfl, ?_⟩
      rw [hsm]; exact hwk _ (by split <;> rfl) (by simp [hp, Pc.waits])
    case wRet k =>
      cases hs
      refine ⟨q, ?_, hI', by rw [hsm]; exact hq, hm, ?_⟩
      · split <;> simp [accepts, acc, hm, hlt.2.2.2.1]
      · rw [hsm]; exact hwk _ rfl (by simp [hp, Pc.waits])
    case wEval k =>
      (repeat' split at hs) <;> cases hs
      all_goals
        refine ⟨q, ?_, hI', by rw [hsm]; exact hq, hm, ?_⟩
        · simp [accepts, acc, hm, hlt.2.2.2.1]
        · rw [hsm]; exact hwk _ rfl (by simp [hp, Pc.waits])
    all_goals
      (repeat' split at hs) <;> (try cases hs)
      all_goals
        refine ⟨q, rfl, hI', by rw [hsm]; exact hq, hm, ?_⟩
        rw [hsm]; exact hwk _ rfl (by simp [hp, Pc.waits])

end Verif.Cv
