import Verif.Monitor.Refine

/-! # Termination of the internal steps of a monitor -/

namespace Verif.Monitor
section
variable {σ C K V E : Type} [DecidableEq C]

/-- Steps a section still needs for its notifications and its end. (Concerns co_condition_variable.h:69-88, co_condition_variable.cpp:18-39.) -/
def sigW (wl : C → List Tid) : List (Sig C) → Nat
  | [] => 7
  | g :: l => 5 + (wl g.cv).length + sigW wl l

/-- Steps a coroutine at point `p` needs at most until it has the mutex for its next section. (Concerns co_condition_variable.h:69-88, co_condition_variable.cpp:18-39.) -/
def weight (wl : C → List Tid) : Pc C K V → Nat
  | .idle => 0
  | .acq _ => 1
  | .exec _ => 0
  | .sig l _ => sigW wl l
  | .sGo g l _ => 3 + (wl g.cv).length + sigW wl l
  | .sWake _ _ l _ => 2 + sigW wl l
  | .sAll _ ws l _ => 2 + ws.length + sigW wl l
  | .sRel _ l _ => 1 + sigW wl l
  | .pPush _ _ => 6
  | .pUnlk _ _ => 5
  | .pSleep _ _ => 4
  | .pRel _ _ => 3
  | .pYield _ _ => 2

theorem sigW_mono {wl wl' : C → List Tid} (h : ∀ c, (wl' c).length ≤ (wl c).length) (l : List (Sig C)) :
    sigW wl' l ≤ sigW wl l := by
  induction l with
  | nil => simp [sigW]
  | cons g l ih => simp only [sigW]; have := h g.cv; omega

theorem weight_free (wl wl' : C → List Tid) (p : Pc C K V) (h : p.hasM = false) :
    weight wl' p = weight wl p := by
  cases p <;> simp [Pc.hasM, weight] at h ⊢

/-- A step that is no abstract step makes the coroutine's weight smaller. -/
theorem weight_step {o : Obj σ C K V E} (s : Low σ C K V) (t : Tid) (s' : Low σ C K V)
    (es : List (Ev K V E)) (hs : s.step o (.run t) = some (s', es)) :
    (s.pc t).visible = true ∨ weight s'.wl (s'.pc t) < weight s.wl (s.pc t) := by
  simp only [Low.step, Low.runStep, Low.goto] at hs
  have hset : ∀ (c : C) (l : List Tid), l.length ≤ (s.wl c).length →
      ∀ d, (setC s.wl c l d).length ≤ (s.wl d).length := by
    intro c l hl d; simp only [setC]; split
    · next h => subst h; exact hl
    · exact Nat.le_refl _
  cases hp : s.pc t <;> simp only [hp] at hs
  case idle => cases hs
  case exec k => exact Or.inl rfl
  case sig l f =>
    rcases l with _ | ⟨g, l⟩
    rcases f with v | v | ⟨c, k⟩
    all_goals simp only at hs
    · exact Or.inl rfl
    · cases hs; right; simp [weight, sigW]
    · split at hs <;> cases hs; right; simp [weight, sigW]
    · split at hs <;> cases hs; right; simp [weight, sigW]
  case sGo g l f =>
    right
    rcases g with c | c <;> simp only at hs
    · split at hs <;> cases hs
      · simp [weight]; omega
      · rename_i v rest hw
        have := sigW_mono (hset c rest (by simp [hw])) l
        simp [weight]; omega
    · cases hs; simp [weight, Sig.cv]
  case sAll c ws l f =>
    right
    cases ws <;> cases hs
    · have := sigW_mono (hset c [] (by simp)) l
      simp [weight]; omega
    · simp [weight]
  all_goals
    right
    (try split at hs) <;> cases hs
    all_goals simp [weight]

/-- One internal step of the concrete / abstract machine. (Concerns co_condition_variable.h:69-88, co_condition_variable.cpp:18-39.) -/
def LowInt (o : Obj σ C K V E) (s' s : Low σ C K V) : Prop := ∃ t es, s.step o (.run t) = some (s', es)
/-- Proof device: one internal step of the atomic machine. (Concerns co_condition_variable.h:69-88, co_condition_variable.cpp:18-39.) -/
def AbsInt (o : Obj σ C K V E) (a' a : Abs σ C K V) : Prop :=
  ∃ t es, a.step o (.run t) = some (a', es) ∨ a.step o (.leave t) = some (a', es)

/-- Everybody outside `L` is outside the object. (Concerns co_condition_variable.h:69-88, co_condition_variable.cpp:18-39.) -/
def Low.Within (s : Low σ C K V) (L : List Tid) : Prop := ∀ u, u ∉ L → s.pc u = .idle

theorem run_pc_other {o : Obj σ C K V E} {s s' : Low σ C K V} {t : Tid} {es : List (Ev K V E)}
    (hs : s.step o (.run t) = some (s', es)) :
    (∀ u, u ≠ t → s'.pc u = s.pc u) ∧ s.pc t ≠ .idle := by
  simp only [Low.step, Low.runStep, Low.goto] at hs
  cases hp : s.pc t <;> simp only [hp] at hs
  case idle => cases hs
  case sig l f =>
    rcases l with _ | ⟨g, l⟩
    rcases f with v | v | ⟨c, k⟩
    all_goals simp only at hs
    all_goals (try split at hs) <;> cases hs
    all_goals exact ⟨fun u hu => by simp [hu], by simp⟩
  case sGo g l f =>
    cases g <;> simp only at hs
    all_goals (try split at hs) <;> cases hs
    all_goals exact ⟨fun u hu => by simp [hu], by simp⟩
  case sAll c ws l f =>
    cases ws <;> cases hs
    all_goals exact ⟨fun u hu => by simp [hu], by simp⟩
  all_goals (try split at hs) <;> cases hs
  all_goals exact ⟨fun u hu => by simp [hu], by simp⟩

theorem run_wl_of_free {o : Obj σ C K V E} {s s' : Low σ C K V} {t : Tid} {es : List (Ev K V E)}
    (hs : s.step o (.run t) = some (s', es)) (hf : (s.pc t).hasM = false) : s'.wl = s.wl := by
  simp only [Low.step, Low.runStep, Low.goto] at hs
  cases hp : s.pc t <;> simp only [hp, Pc.hasM] at hs hf <;> try (cases hf)
  all_goals (try split at hs) <;> cases hs
  all_goals rfl

theorem Low.Within.step {o : Obj σ C K V E} {s s' : Low σ C K V} {L : List Tid} {t : Tid}
    {es : List (Ev K V E)} (h : s.Within L) (hs : s.step o (.run t) = some (s', es)) : s'.Within L := by
  obtain ⟨h1, h2⟩ := run_pc_other hs
  intro u hu
  have hut : u ≠ t := by rintro rfl; exact h2 (h u hu)
  rw [h1 u hut]; exact h u hu

theorem low_acc (o : Obj σ C K V E) (L : List Tid) (hL : L.Nodup) (a : Abs σ C K V)
    (ha : Acc (AbsInt o) a) : ∀ s : Low σ C K V, s.Inv → s.abs = a → s.Within L → Acc (LowInt o) s := by
  induction ha with
  | intro a _ ih =>
    intro s
    generalize hn : sumOver L (fun u => weight s.wl (s.pc u)) = n
    induction n using Nat.strongRecOn generalizing s with
    | _ n ihn =>
      intro hI hab hw
      refine Acc.intro s (fun s' hs' => ?_)
      obtain ⟨t, es, hs⟩ := hs'
      have hI' := Low.inv_step s _ s' es hI hs
      have hw' := hw.step hs
      rcases refine_step s _ s' es hI hs with ⟨rfl, he, hv⟩ | ⟨x, hx, hxs⟩
      · rcases weight_step s t s' [] hs with hx | hlt
        · simp [hv t rfl] at hx
        · have hpc := run_pc_other hs
          have htL : t ∈ L := by
            apply Decidable.byContradiction; intro h; exact hpc.2 (hw t h)
          have hothers : ∀ u, u ≠ t → weight s'.wl (s'.pc u) = weight s.wl (s.pc u) := by
            intro u hu
            rw [hpc.1 u hu]
            cases hf : (s.pc t).hasM with
            | false => rw [run_wl_of_free hs hf]
            | true =>
              have hm := (hI.m t).1 hf
              refine weight_free _ _ _ ?_
              cases hfu : (s.pc u).hasM with
              | false => rfl
              | true => have := (hI.m u).1 hfu; rw [hm] at this; simp at this; exact absurd this.symm hu
          have hsum := sumOver_single hL htL (f := fun u => weight s'.wl (s'.pc u))
            (g := fun u => weight s.wl (s.pc u)) hothers
          exact ihn (sumOver L fun u => weight s'.wl (s'.pc u)) (by omega) s' rfl hI' (he.trans hab) hw'
      · refine ih s'.abs ?_ s' hI' rfl hw'
        rw [← hab]
        rcases hx t rfl with rfl | rfl
        · exact ⟨t, es, Or.inl hxs⟩
        · exact ⟨t, es, Or.inr hxs⟩

theorem within_reach (o : Obj σ C K V E) (s0 : σ) (as : List (Act K)) (s : Low σ C K V)
    (es : List (Ev K V E)) (h : runs (Low.step o) (Low.init s0) as = some (s, es)) :
    ∃ L : List Tid, L.Nodup ∧ s.Within L := by
  refine runs_inv (fun s : Low σ C K V => ∃ L : List Tid, L.Nodup ∧ s.Within L) ?_ as (Low.init s0) s es
    ⟨[], by simp, fun _ _ => rfl⟩ h
  rintro s a s' es ⟨L, hn, hw⟩ hs
  cases a with
  | run t => exact ⟨L, hn, hw.step hs⟩
  | call t k =>
    simp only [Low.step, Low.goto] at hs
    split at hs <;> cases hs
    by_cases ht : t ∈ L
    · refine ⟨L, hn, fun u hu => ?_⟩
      have : u ≠ t := by rintro rfl; exact hu ht
      simpa [this] using hw u hu
    · refine ⟨t :: L, by simp [ht, hn], fun u hu => ?_⟩
      simp only [List.mem_cons, not_or] at hu
      simpa [hu.1] using hw u hu.2

theorem acc_no_infinite {α : Type} {r : α → α → Prop} {x : α} (h : Acc r x) :
    ¬ ∃ f : Nat → α, f 0 = x ∧ ∀ n, r (f (n + 1)) (f n) := by
  induction h with
  | intro x _ ih =>
    rintro ⟨f, rfl, hf⟩
    exact ih (f 1) (hf 0) ⟨fun n => f (n + 1), rfl, fun n => hf (n + 1)⟩

/-- C22, termination: if the abstract object cannot go on for ever without new calls, neither can the concrete one:
from a reachable state there is no infinite sequence of steps of coroutines inside calls. -/
theorem C22_terminates (o : Obj σ C K V E) (s0 : σ) (as : List (Act K)) (s : Low σ C K V)
    (es : List (Ev K V E)) (h : runs (Low.step o) (Low.init s0) as = some (s, es))
    (ha : Acc (AbsInt o) s.abs) :
    ¬ ∃ f : Nat → Low σ C K V, f 0 = s ∧ ∀ n, ∃ t e, (f n).step o (.run t) = some (f (n + 1), e) := by
  obtain ⟨L, hn, hw⟩ := within_reach o s0 as s es h
  have hI := runs_inv Low.Inv (Low.inv_step (o := o)) as _ s es (Low.inv_init s0) h
  exact acc_no_infinite (low_acc o L hn _ ha s hI rfl hw)

end
end Verif.Monitor
