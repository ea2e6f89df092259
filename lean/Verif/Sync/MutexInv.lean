import Verif.Sync.Mutex

/-! # Invariant of the co_mutex model -/

namespace Verif.Mutex
open LockSpec

/-- What is true of coroutine `t` at its program point. (Concerns co_mutex.cpp:17-108.) -/
def Loc (s : St) (t : Tid) : Prop :=
  match s.pc t with
  | .out | .tlAcq | .tlTest | .tlRet false =>
    (s.hold t = true ↔ s.owner = some t) ∧ t ∉ s.queue ∧ s.asleep t = false
  | .lkAcq | .lkSpin | .lkYield | .lkReacq | .lkCheck =>
    s.hold t = false ∧ s.owner ≠ some t ∧ t ∉ s.queue ∧ s.asleep t = false
  | .lkLoop => s.hold t = false ∧ (t ∈ s.queue ↔ s.owner ≠ some t) ∧ s.asleep t = false
  | .lkSleep => s.hold t = false ∧ t ∈ s.queue ∧ s.owner ≠ some t ∧ s.asleep t = true
  | .lkParked =>
    s.hold t = false ∧ (t ∈ s.queue ↔ s.owner ≠ some t) ∧ (s.asleep t = true ↔ t ∈ s.queue)
  | .lkReacq2 | .lkRet | .tlRet true =>
    s.hold t = false ∧ s.owner = some t ∧ t ∉ s.queue ∧ s.asleep t = false
  | .ulAcq h | .ulTest h =>
    s.hold t = false ∧ (h = true ↔ s.owner = some t) ∧ t ∉ s.queue ∧ s.asleep t = false
  | .ulRet _ => s.hold t = false ∧ s.owner ≠ some t ∧ t ∉ s.queue ∧ s.asleep t = false

/-- The invariant. (Concerns co_mutex.cpp:17-108.) -/
structure Inv (s : St) : Prop where
  loc : ∀ t, Loc s t
  spin : ∀ t, (s.pc t).spin = true ↔ s.spin = some t
  nodup : s.queue.Nodup
  free : s.owner = none → s.queue = []

theorem inv_init : Inv St.init := by
  constructor <;> simp [St.init, Loc, Pc.spin]

/-- `Loc` only depends on these observations. -/
theorem Loc.frame {s s' : St} {u : Tid} (h : Loc s u) (hp : s'.pc u = s.pc u)
    (hh : s'.hold u = s.hold u) (ha : s'.asleep u = s.asleep u)
    (ho : s'.owner = some u ↔ s.owner = some u) (hq : u ∈ s'.queue ↔ u ∈ s.queue) : Loc s' u := by
  simp only [Loc, hp, hh, ha, ne_eq, ho, hq] at *
  exact h

theorem inv_step (s : St) (a : Act) (s' : St) (es : List Ev) (h : Inv s)
    (hs : step false s a = some (s', es)) : Inv s' := by
  obtain ⟨hl, h1, h4, h5⟩ := h
  cases a with
  | callLock t =>
    simp only [step, St.goto] at hs
    have hlt := hl t
    split at hs <;> try cases hs
    refine ⟨fun u => ?_, fun u => ?_, ?_, ?_⟩
    · by_cases hu : u = t
      · subst hu; simp_all [Loc]
      · exact (hl u).frame (by simp [hu]) rfl rfl Iff.rfl Iff.rfl
    all_goals grind [Pc.spin]
  | callTry t =>
    simp only [step, St.goto] at hs
    have hlt := hl t
    split at hs <;> try cases hs
    refine ⟨fun u => ?_, fun u => ?_, ?_, ?_⟩
    · by_cases hu : u = t
      · subst hu; simp_all [Loc]
      · exact (hl u).frame (by simp [hu]) rfl rfl Iff.rfl Iff.rfl
    all_goals grind [Pc.spin]
  | callUnlock t =>
    simp only [step] at hs
    have hlt := hl t
    split at hs <;> try cases hs
    refine ⟨fun u => ?_, fun u => ?_, ?_, ?_⟩
    · by_cases hu : u = t
      · subst hu; simp_all [Loc]
      · exact (hl u).frame (by simp [hu]) (by simp [hu]) rfl Iff.rfl Iff.rfl
    all_goals grind [Pc.spin]
  | run t b =>
    simp only [step, runStep] at hs
    have hlt := hl t
    have h1t := h1 t
    cases hp : s.pc t <;> simp only [hp, St.acquire, St.goto] at hs <;>
      (try split at hs) <;> (try split at hs) <;> (try cases hs) <;>
      refine ⟨fun u => ?_, fun u => ?_, ?_, ?_⟩
    all_goals simp only [Loc, hp] at hlt
    all_goals first
      | grind [Pc.spin]
      | (by_cases hu : u = t
         · subst hu; simp [Loc]; grind
         · refine (hl u).frame (by simp [hu]) (by first | rfl | grind) (by first | rfl | grind)
             (by first | rfl | grind) (by first | rfl | grind))
      | skip
    · rename_i v rest hvq
      by_cases hu : u = t
      · subst hu; simp [Loc]; grind
      · by_cases huv : u = v
        · subst huv
          have hns : (s.pc u).spin ≠ true := by
            have := h1 u; grind [Pc.spin]
          have := hl u
          simp only [Loc, upd_other _ _ hu, upd_same] at this ⊢
          cases hpu : s.pc u <;> simp only [hpu, Pc.spin] at this hns ⊢ <;> grind
        · exact (hl u).frame (by simp [hu]) rfl (by simp [huv]) (by grind) (by grind)

/-- Relation to the lock specification: its critical section is the client's record, and the outcome
it expects of a pending `unlock()` is the one the code is going to produce. (Concerns co_mutex.cpp:17-108.) -/
structure R (s : St) (q : Q) : Prop where
  inv : Inv s
  cs : ∀ t, q.cs = some t ↔ s.hold t = true
  pend : ∀ t, match s.pc t with
    | .ulAcq h | .ulTest h | .ulRet h => q.pend t = some h
    | _ => True

theorem R_init : R St.init Q.init := ⟨inv_init, by simp [St.init, Q.init], by simp [St.init]⟩

/-- Who holds the mutex according to its client is its owner. -/
theorem Inv.owner_of_hold {s : St} (h : Inv s) {t : Tid} (ht : s.hold t = true) :
    s.owner = some t := by
  have := h.loc t
  simp only [Loc] at this
  grind

theorem step_sim (s : St) (a : Act) (s' : St) (es : List Ev) (q : Q) (h : R s q)
    (hs : step false s a = some (s', es)) :
    ∃ q', accepts acc q es = some q' ∧ R s' q' := by
  have hinv' := inv_step s a s' es h.inv hs
  obtain ⟨hi, hc, hp⟩ := h
  have hown := fun u => hi.owner_of_hold (t := u)
  cases a with
  | callLock t =>
    simp only [step, St.goto] at hs
    split at hs <;> cases hs
    refine ⟨q, rfl, hinv', hc, fun u => ?_⟩
    have := hp u
    by_cases hu : u = t
    · subst hu; simp
    · simpa [hu] using this
  | callTry t =>
    simp only [step, St.goto] at hs
    split at hs <;> cases hs
    refine ⟨q, rfl, hinv', hc, fun u => ?_⟩
    have := hp u
    by_cases hu : u = t
    · subst hu; simp
    · simpa [hu] using this
  | callUnlock t =>
    simp only [step] at hs
    split at hs <;> cases hs
    by_cases hq : q.cs = some t
    · refine ⟨_, by simp [accepts, acc, hq]; rfl, hinv', fun u => ?_, fun u => ?_⟩
      · have := hc u; have := hc t; grind
      · have hpu := hp u; have hct := hc t
        by_cases hu : u = t
        · subst hu; simp; grind
        · simpa [hu] using hpu
    · refine ⟨_, by simp [accepts, acc, hq]; rfl, hinv', fun u => ?_, fun u => ?_⟩
      · have := hc u; have := hc t; grind
      · have hpu := hp u; have hct := hc t
        by_cases hu : u = t
        · subst hu; simp; grind
        · simpa [hu] using hpu
  | run t b =>
    have hlt := hi.loc t
    have hpt := hp t
    have hctn : s.owner = some t → s.hold t = false → q.cs = none := by
      intro h1 h2
      cases hq : q.cs with
      | none => rfl
      | some u => have := hown u ((hc u).1 hq); grind
    simp only [step, runStep] at hs
    cases hpc : s.pc t <;> simp only [hpc, St.acquire, St.goto] at hs hpt <;>
      simp only [Loc, hpc] at hlt <;>
      (try split at hs) <;> (try split at hs) <;> (try cases hs)
    case lkRet.refl =>
      have hn := hctn hlt.2.1 hlt.1
      refine ⟨{ q with cs := some t }, by simp [accepts, acc, hn], hinv', fun u => ?_, fun u => ?_⟩
      · have := hc u; grind
      · have := hp u
        by_cases hu : u = t
        · subst hu; simp
        · simpa [hu] using this
    case tlRet.isTrue.refl =>
      rename_i bb hb
      subst hb
      have hn := hctn hlt.2.1 hlt.1
      refine ⟨{ q with cs := some t }, by simp [accepts, acc, hn], hinv', fun u => ?_, fun u => ?_⟩
      · have := hc u; grind
      · have := hp u
        by_cases hu : u = t
        · subst hu; simp
        · simpa [hu] using this
    case tlRet.isFalse.refl =>
      rename_i bb hb
      refine ⟨q, by simp [accepts, acc], hinv', fun u => ?_, fun u => ?_⟩
      · have := hc u; grind
      · have := hp u
        by_cases hu : u = t
        · subst hu; simp
        · simpa [hu] using this
    case ulRet.refl =>
      refine ⟨_, by simp [accepts, acc, hpt]; rfl, hinv', fun u => ?_, fun u => ?_⟩
      · have := hc u; grind
      · have := hp u
        by_cases hu : u = t
        · subst hu; simp
        · simpa [hu] using this
    all_goals
      refine ⟨q, rfl, hinv', hc, fun u => ?_⟩
      have := hp u
      by_cases hu : u = t
      · subst hu; simp; try grind
      · simpa [hu] using this

end Verif.Mutex
