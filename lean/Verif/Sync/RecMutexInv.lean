import Verif.Sync.RecMutex
import Verif.Base.Sum

/-! # Invariant of the co_recursive_mutex model -/

namespace Verif.RecMutex
open LockSpec

/-- What is true of coroutine `t` at its program point. (Concerns co_recursive_mutex.cpp:14-107.) -/
def Loc (s : St) (t : Tid) : Prop :=
  match s.pc t with
  | .out | .tlAcq | .tlTest | .lkAcq | .lkFast | .ulRet _ =>
    (0 < s.depth t ↔ s.owner = some t) ∧ (s.owner = some t → s.count = s.depth t) ∧
      t ∉ s.queue ∧ s.asleep t = false
  | .tlRet false | .lkSpin | .lkYield | .lkReacq | .lkCheck =>
    s.depth t = 0 ∧ s.owner ≠ some t ∧ t ∉ s.queue ∧ s.asleep t = false
  | .lkLoop =>
    s.depth t = 0 ∧ (t ∈ s.queue ↔ s.owner ≠ some t) ∧ s.asleep t = false ∧
      (s.owner = some t → s.count = 1)
  | .lkSleep => s.depth t = 0 ∧ t ∈ s.queue ∧ s.owner ≠ some t ∧ s.asleep t = true
  | .lkParked =>
    s.depth t = 0 ∧ (t ∈ s.queue ↔ s.owner ≠ some t) ∧ (s.asleep t = true ↔ t ∈ s.queue) ∧
      (s.owner = some t → s.count = 1)
  | .lkReacq2 =>
    s.depth t = 0 ∧ s.owner = some t ∧ s.count = 1 ∧ t ∉ s.queue ∧ s.asleep t = false
  | .lkRet | .tlRet true =>
    s.owner = some t ∧ s.count = s.depth t + 1 ∧ t ∉ s.queue ∧ s.asleep t = false
  | .ulAcq h | .ulTest h =>
    (h = true ↔ s.owner = some t) ∧ (s.owner = some t → s.count = s.depth t + 1) ∧
      (s.owner ≠ some t → s.depth t = 0) ∧ t ∉ s.queue ∧ s.asleep t = false

/-- The invariant. (Concerns co_recursive_mutex.cpp:14-107.) -/
structure Inv (s : St) : Prop where
  loc : ∀ t, Loc s t
  spin : ∀ t, (s.pc t).spin = true ↔ s.spin = some t
  nodup : s.queue.Nodup
  free : s.owner = none → s.queue = [] ∧ s.count = 0

theorem inv_init : Inv St.init := by
  constructor <;> simp [St.init, Loc, Pc.spin]

/-- `Loc` only depends on these observations. -/
theorem Loc.frame {s s' : St} {u : Tid} (h : Loc s u) (hp : s'.pc u = s.pc u)
    (hd : s'.depth u = s.depth u) (ha : s'.asleep u = s.asleep u)
    (ho : s'.owner = some u ↔ s.owner = some u) (hc : s.owner = some u → s'.count = s.count)
    (hq : u ∈ s'.queue ↔ u ∈ s.queue) : Loc s' u := by
  simp only [Loc, hp, hd, ha, ne_eq, ho, hq] at *
  cases hpc : s.pc u <;> simp only [hpc] at h ⊢ <;> grind

theorem inv_step (s : St) (a : Act) (s' : St) (es : List Ev) (h : Inv s)
    (hs : step s a = some (s', es)) : Inv s' := by
  obtain ⟨hl, h1, h4, h5⟩ := h
  cases a with
  | callLock t | callTry t | callUnlock t =>
    simp only [step, St.goto] at hs
    have hlt := hl t
    split at hs <;> try cases hs
    refine ⟨fun u => ?_, fun u => ?_, ?_, ?_⟩
    · by_cases hu : u = t
      · subst hu; simp_all [Loc]; try grind
      · exact (hl u).frame (by simp [hu]) (by simp [hu]) rfl Iff.rfl (fun _ => rfl) Iff.rfl
    all_goals grind [Pc.spin]
  | run t b =>
    simp only [step, runStep] at hs
    have hlt := hl t
    have h1t := h1 t
    cases hp : s.pc t <;> simp only [hp, St.acquire, St.goto, St.take] at hs <;>
      (repeat' split at hs) <;> (try cases hs) <;>
      refine ⟨fun u => ?_, fun u => ?_, ?_, ?_⟩
    all_goals simp only [Loc, hp] at hlt
    all_goals first
      | grind [Pc.spin]
      | (by_cases hu : u = t
         · subst hu; simp [Loc]; grind
         · refine (hl u).frame (by simp [hu]) (by first | rfl | grind) (by first | rfl | grind)
             (by first | rfl | grind) (by first | exact (fun _ => rfl) | grind) (by first | rfl | grind))
      | skip
    · rename_i v rest hvq
      by_cases hu : u = t
      · subst hu; simp [Loc]; grind
      · by_cases huv : u = v
        · subst huv
          have hns : (s.pc u).spin ≠ true := by
            have := h1 u; grind [Pc.spin]
          have := hl u
          simp only [Loc, upd_other _ _ hu, upd_same] at this ⊢
          cases hpu : s.pc u <;> simp only [hpu, Pc.spin] at this hns ⊢ <;> grind
        · exact (hl u).frame (by simp [hu]) rfl (by simp [huv]) (by grind) (by grind) (by grind)

/-- Relation to the recursive lock specification. (Concerns co_recursive_mutex.cpp:14-107.) -/
structure R (s : St) (q : RQ) : Prop where
  inv : Inv s
  holder : ∀ t, q.holder = some t ↔ 0 < s.depth t
  depth : ∀ t, q.holder = some t → q.depth = s.depth t
  pend : ∀ t, match s.pc t with
    | .ulAcq h | .ulTest h | .ulRet h => q.pend t = some h
    | _ => True

theorem R_init : R St.init RQ.init :=
  ⟨inv_init, by simp [St.init, RQ.init], by simp [RQ.init], by simp [St.init]⟩

/-- Whoever holds the mutex according to its client is its owner. -/
theorem Inv.owner_of_depth {s : St} (h : Inv s) {t : Tid} (ht : 0 < s.depth t) :
    s.owner = some t := by
  have := h.loc t
  simp only [Loc] at this
  grind

theorem step_sim (s : St) (a : Act) (s' : St) (es : List Ev) (q : RQ) (h : R s q)
    (hs : step s a = some (s', es)) :
    ∃ q', accepts racc q es = some q' ∧ R s' q' := by
  have hinv' := inv_step s a s' es h.inv hs
  obtain ⟨hi, hc, hd, hp⟩ := h
  have hown := fun u => hi.owner_of_depth (t := u)
  cases a with
  | callLock t | callTry t =>
    simp only [step, St.goto] at hs
    split at hs <;> cases hs
    refine ⟨q, rfl, hinv', hc, hd, fun u => ?_⟩
    have := hp u
    by_cases hu : u = t
    · subst hu; simp
    · simpa [hu] using this
  | callUnlock t =>
    simp only [step] at hs
    split at hs <;> cases hs
    have hct := hc t
    have hdt := hd t
    by_cases hq : q.holder = some t
    · refine ⟨_, by simp [accepts, racc, hq]; rfl, hinv', fun u => ?_, fun u => ?_, fun u => ?_⟩
      · have := hc u; grind
      · have := hc u; have := hd u; grind
      · have hpu := hp u
        by_cases hu : u = t
        · subst hu; simp; grind
        · simpa [hu] using hpu
    · refine ⟨_, by simp [accepts, racc, hq]; rfl, hinv', fun u => ?_, fun u => ?_, fun u => ?_⟩
      · have := hc u; grind
      · have := hc u; have := hd u; grind
      · have hpu := hp u
        by_cases hu : u = t
        · subst hu; simp; grind
        · simpa [hu] using hpu
  | run t b =>
    have hlt := hi.loc t
    have hpt := hp t
    have hacq : s.owner = some t →
        accepts racc q [.acq t] = some { q with holder := some t, depth := s.depth t + 1 } := by
      intro h1
      simp only [accepts, racc]
      cases hq : q.holder with
      | none =>
        have : s.depth t = 0 := by have := hc t; grind
        simp [this]
      | some u =>
        have := hown u ((hc u).1 hq)
        have hut : u = t := by grind
        subst hut
        have := hd u hq
        simp [this]
    simp only [step, runStep] at hs
    cases hpc : s.pc t <;> simp only [hpc, St.acquire, St.goto, St.take] at hs hpt <;>
      simp only [Loc, hpc] at hlt
    case lkRet =>
      cases hs
      refine ⟨_, hacq hlt.1, hinv', fun u => ?_, fun u => ?_, fun u => ?_⟩
      · have := hc u; have := hown u; grind
      · have := hc u; have := hd u; grind
      · have := hp u
        by_cases hu : u = t
        · subst hu; simp
        · simpa [hu] using this
    case tlRet bb =>
      cases hs
      cases bb with
      | true =>
        refine ⟨_, hacq hlt.1, hinv', fun u => ?_, fun u => ?_, fun u => ?_⟩
        · have := hc u; have := hown u; grind
        · have := hc u; have := hd u; grind
        · have := hp u
          by_cases hu : u = t
          · subst hu; simp
          · simpa [hu] using this
      | false =>
        have : q.holder ≠ some t := by have := hc t; grind
        refine ⟨q, by simp [accepts, racc, this], hinv', fun u => ?_, fun u => ?_, fun u => ?_⟩
        · have := hc u; grind
        · have := hd u; grind
        · have := hp u
          by_cases hu : u = t
          · subst hu; simp
          · simpa [hu] using this
    case ulRet =>
      cases hs
      refine ⟨_, by simp [accepts, racc, hpt]; rfl, hinv', fun u => ?_, fun u => ?_, fun u => ?_⟩
      · have := hc u; grind
      · have := hd u; grind
      · have := hp u
        by_cases hu : u = t
        · subst hu; simp
        · simpa [hu] using this
    all_goals
      (repeat' split at hs) <;> (try cases hs)
      all_goals
        refine ⟨q, rfl, hinv', hc, hd, fun u => ?_⟩
        have := hp u
        by_cases hu : u = t
        · subst hu; simp; try grind
        · simpa [hu] using this

end Verif.RecMutex
