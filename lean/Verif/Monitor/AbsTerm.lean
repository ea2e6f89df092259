import Verif.Monitor.Term

/-! # A sufficient condition for termination of a monitor object -/

namespace Verif.Monitor
section
variable {σ C K V E : Type} [DecidableEq C]

/-- `rem k` bounds the sections that a call at point `k` still has to complete: every section makes it smaller,
except one that only waits (without notifying anybody). (Concerns co_condition_variable.h:69-88, co_condition_variable.cpp:18-39.) -/
def Shrinks (o : Obj σ C K V E) (rem : K → Nat) : Prop :=
  ∀ t k sh, match (o.body t k sh).fin with
    | .ret _ => 0 < rem k
    | .next k' => rem k' < rem k
    | .park _ k' => rem k' < rem k ∨ ((o.body t k sh).sigs = [] ∧ rem k' ≤ rem k)

/-- Proof device: termination weight of a coroutine. (Concerns co_condition_variable.h:69-88, co_condition_variable.cpp:18-39.) -/
def Th.wgt (n : Nat) (rem : K → Nat) : Th C K V → Nat
  | .idle => 0
  | .ready k => (n + 2) * rem k + 1
  | .parked _ k => (n + 2) * rem k
  | .leaving _ => 1

/-- Proof device: only coroutines in `L` are in calls. (Concerns co_condition_variable.h:69-88, co_condition_variable.cpp:18-39.) -/
def Abs.Within (a : Abs σ C K V) (L : List Tid) : Prop := ∀ u, u ∉ L → a.th u = .idle

theorem settle_wgt (n : Nat) (rem : K → Nat) (wq : C → List Tid) (u : Tid) (x : Th C K V) :
    (settle wq u x).wgt n rem ≤ x.wgt n rem + 1 := by
  cases x with
  | parked c k => simp only [settle]; split <;> simp [Th.wgt]
  | _ => simp [settle]

theorem settle_idle (wq : C → List Tid) (u : Tid) : settle wq u (.idle : Th C K V) = .idle := rfl

theorem abs_within_step {o : Obj σ C K V E} {a a' : Abs σ C K V} {L : List Tid} (h : a.Within L)
    (hs : AbsInt o a' a) : a'.Within L := by
  obtain ⟨t, es, hs⟩ := hs
  intro u hu
  have hi := h u hu
  rcases hs with hs | hs
  · simp only [Abs.step] at hs
    split at hs <;> cases hs
    rename_i k hk
    have : u ≠ t := by rintro rfl; rw [hi] at hk; cases hk
    simp [this, hi, settle]
  · simp only [Abs.step] at hs
    split at hs <;> cases hs
    rename_i k hk
    have : u ≠ t := by rintro rfl; rw [hi] at hk; cases hk
    simp [this, hi]

theorem sumOver_le_add (L : List Tid) (f g : Tid → Nat) (t : Tid) (hn : L.Nodup) (ht : t ∈ L)
    (h : ∀ u, u ≠ t → f u ≤ g u + 1) : sumOver L f + g t ≤ sumOver L g + f t + (L.length - 1) := by
  unfold sumOver
  induction L with
  | nil => simp at ht
  | cons a L ih =>
    simp only [List.map_cons, List.sum_cons, List.length_cons, Nat.add_sub_cancel]
    rw [List.nodup_cons] at hn
    by_cases ha : t = a
    · subst ha
      have : ∀ M : List Tid, t ∉ M → (M.map f).sum ≤ (M.map g).sum + M.length := by
        intro M
        induction M with
        | nil => simp
        | cons b M ihM =>
          intro hM
          simp only [List.mem_cons, not_or] at hM
          have h1 := h b (Ne.symm hM.1)
          have h2 := ihM hM.2
          simp only [List.map_cons, List.sum_cons, List.length_cons]
          omega
      have := this L hn.1
      omega
    · have htL : t ∈ L := by grind
      have h1 := ih hn.2 htL
      have h2 := h a (Ne.symm ha)
      have : 0 < L.length := List.length_pos_of_mem htL
      omega

theorem abs_acc (o : Obj σ C K V E) (rem : K → Nat) (hr : Shrinks o rem) (L : List Tid) (hL : L.Nodup) :
    ∀ a : Abs σ C K V, a.Wf → a.Within L → Acc (AbsInt o) a := by
  intro a
  generalize hn : sumOver L (fun u => (a.th u).wgt L.length rem) = n
  induction n using Nat.strongRecOn generalizing a with
  | _ n ihn =>
    intro hw hL'
    refine Acc.intro a (fun a' hs => ?_)
    have hwi := abs_within_step hL' hs
    obtain ⟨t, es, hs⟩ := hs
    have hw' : a'.Wf := by
      rcases hs with hs | hs
      · exact Abs.wf_step a _ a' es hw hs
      · exact Abs.wf_step a _ a' es hw hs
    refine ihn (sumOver L fun u => (a'.th u).wgt L.length rem) ?_ a' rfl hw' hwi
    rw [← hn]
    have htL : ∀ k : Th C K V, k ≠ .idle → a.th t = k → t ∈ L := by
      intro k hk hth
      apply Decidable.byContradiction; intro h; exact hk ((hL' t h) ▸ hth.symm)
    rcases hs with hs | hs
    · simp only [Abs.step] at hs
      split at hs <;> cases hs
      rename_i k hk
      have ht := htL _ (by simp) hk
      have hbr := hr t k a.sh
      have hlen : 0 < L.length := List.length_pos_of_mem ht
      let wq := enqueue ((o.body t k a.sh).sigs.foldl notify a.wq) t (o.body t k a.sh).fin
      by_cases hcase : (o.body t k a.sh).fin.th.wgt L.length rem + (L.length + 1) ≤ (a.th t).wgt L.length rem
      · have hsum := sumOver_le_add L
          (fun u => ((upd (fun u => settle wq u (a.th u)) t (o.body t k a.sh).fin.th) u).wgt L.length rem)
          (fun u => (a.th u).wgt L.length rem) t hL ht (fun u hu => by
            simp only [upd_other _ _ hu]; exact settle_wgt _ _ _ _ _)
        simp only [upd_same] at hsum
        show sumOver L (fun u => ((upd (fun u => settle wq u (a.th u)) t
          (o.body t k a.sh).fin.th) u).wgt L.length rem) < _
        omega
      · have hmul : ∀ x y : Nat, x < y → (L.length + 2) * x + (L.length + 2) ≤ (L.length + 2) * y := by
          intro x y hxy
          have := Nat.mul_le_mul_left (L.length + 2) hxy
          simp only [Nat.mul_succ] at this
          exact this
        cases hf : (o.body t k a.sh).fin with
        | ret v =>
          exfalso; apply hcase
          simp only [hf] at hbr
          have := hmul 0 (rem k) hbr
          simp only [hf, hk, Fin.th, Th.wgt]
          omega
        | next k' =>
          exfalso; apply hcase
          simp only [hf] at hbr
          have := hmul _ _ hbr
          simp only [hf, hk, Fin.th, Th.wgt]
          omega
        | park c k' =>
          simp only [hf] at hbr
          rcases hbr with hbr | hbr
          · exfalso; apply hcase
            have := hmul _ _ hbr
            simp only [hf, hk, Fin.th, Th.wgt]
            omega
          · have hmono := Nat.mul_le_mul_left (L.length + 2) hbr.2
            have hoth : ∀ u, u ≠ t → ((upd (fun u => settle wq u (a.th u)) t
                (o.body t k a.sh).fin.th) u).wgt L.length rem = (a.th u).wgt L.length rem := by
              intro u hu
              simp only [upd_other _ _ hu]
              cases hth : a.th u with
              | parked d j =>
                have hmem := (hw.mem d u).2 ⟨j, hth⟩
                have : u ∈ wq d := by
                  simp only [wq, hbr.1, List.foldl_nil]
                  rw [mem_enqueue]; exact Or.inl hmem
                simp [settle, this]
              | _ => simp [settle]
            have hsum := sumOver_single hL ht (f := fun u => ((upd (fun u => settle wq u (a.th u)) t
                (o.body t k a.sh).fin.th) u).wgt L.length rem)
              (g := fun u => (a.th u).wgt L.length rem) hoth
            have h1 : ((upd (fun u => settle wq u (a.th u)) t (o.body t k a.sh).fin.th) t).wgt L.length rem =
                (L.length + 2) * rem k' := by simp [hf, Fin.th, Th.wgt]
            have h2 : (a.th t).wgt L.length rem = (L.length + 2) * rem k + 1 := by simp [hk, Th.wgt]
            simp only [h1, h2] at hsum
            rw [← hf]
            show sumOver L (fun u => ((upd (fun u => settle wq u (a.th u)) t
              (o.body t k a.sh).fin.th) u).wgt L.length rem) < _
            omega
    · simp only [Abs.step] at hs
      split at hs <;> cases hs
      rename_i v hk
      have ht := htL _ (by simp) hk
      have hsum := sumOver_single hL ht (f := fun u => ((upd a.th t .idle) u).wgt L.length rem)
        (g := fun u => (a.th u).wgt L.length rem) (fun u hu => by simp [hu])
      have h1 : (a.th t).wgt L.length rem = 1 := by simp [hk, Th.wgt]
      have h2 : ((upd a.th t .idle) t).wgt L.length rem = 0 := by simp [Th.wgt]
      simp only [h1, h2] at hsum
      show sumOver L (fun u => ((upd a.th t .idle) u).wgt L.length rem) < _
      omega

/-- The abstract state of a reachable state is well-formed. -/
theorem abs_wf (o : Obj σ C K V E) (s0 : σ) (as : List (Act K)) (s : Low σ C K V) (es : List (Ev K V E))
    (h : runs (Low.step o) (Low.init s0) as = some (s, es)) : s.abs.Wf := by
  obtain ⟨bs, hb⟩ := C22_critical_sections_atomic o s0 as s es h
  exact runs_inv Abs.Wf (Abs.wf_step (o := o)) bs _ _ es (Abs.wf_init s0) hb

/-- An object whose sections shrink terminates: without new calls no infinite execution. -/
theorem terminates (o : Obj σ C K V E) (rem : K → Nat) (hr : Shrinks o rem) (s0 : σ) (as : List (Act K))
    (s : Low σ C K V) (es : List (Ev K V E)) (h : runs (Low.step o) (Low.init s0) as = some (s, es)) :
    ¬ ∃ f : Nat → Low σ C K V, f 0 = s ∧ ∀ n, ∃ t e, (f n).step o (.run t) = some (f (n + 1), e) := by
  obtain ⟨L, hn, hw⟩ := within_reach o s0 as s es h
  refine C22_terminates o s0 as s es h (abs_acc o rem hr L hn s.abs (abs_wf o s0 as s es h) ?_)
  intro u hu
  simp [Low.abs, hw u hu, thP]

/-- The gate (a call may wait, and is woken by the one that opens it) terminates from wherever it is. -/
example (as : List (Act Bool)) (s : Low Bool Unit Bool Unit) (es : List (Ev Bool Unit Tid))
    (h : runs (Low.step gate) (Low.init false) as = some (s, es)) :
    ¬ ∃ f : Nat → Low Bool Unit Bool Unit, f 0 = s ∧ ∀ n, ∃ t e, (f n).step gate (.run t) = some (f (n + 1), e) :=
  terminates gate (fun _ => 1) (by intro t k sh; cases k <;> cases sh <;> simp [gate]) false as s es h

/-- Invariants of the abstract object hold of the concrete one. -/
theorem abs_inv (o : Obj σ C K V E) (s0 : σ) (as : List (Act K)) (s : Low σ C K V) (es : List (Ev K V E))
    (h : runs (Low.step o) (Low.init s0) as = some (s, es)) (I : Abs σ C K V → Prop) (h0 : I (Abs.init s0))
    (hI : ∀ a x a' es, a.Wf → I a → a.step o x = some (a', es) → I a') : I s.abs := by
  obtain ⟨bs, hb⟩ := C22_critical_sections_atomic o s0 as s es h
  exact (runs_inv (fun a => a.Wf ∧ I a) (fun a x a' es hh hs => ⟨Abs.wf_step a x a' es hh.1 hs,
    hI a x a' es hh.1 hh.2 hs⟩) bs _ _ es ⟨Abs.wf_init s0, h0⟩ hb).2

/-- If a specification accepts all traces of the abstract object, it accepts all of the concrete one. -/
theorem abs_sim {Q : Type} (o : Obj σ C K V E) (acc : Q → Ev K V E → Option Q) (s0 : σ) (q0 : Q)
    (R : Abs σ C K V → Q → Prop) (h0 : R (Abs.init s0) q0)
    (hR : ∀ a x a' es q, a.Wf → R a q → a.step o x = some (a', es) → ∃ q', accepts acc q es = some q' ∧ R a' q')
    (as : List (Act K)) (s : Low σ C K V) (es : List (Ev K V E))
    (h : runs (Low.step o) (Low.init s0) as = some (s, es)) :
    ∃ q, accepts acc q0 es = some q ∧ R s.abs q := by
  obtain ⟨bs, hb⟩ := C22_critical_sections_atomic o s0 as s es h
  obtain ⟨q, h1, h2⟩ := runs_sim (acc := acc) (fun a q => a.Wf ∧ R a q) (fun a x a' es q hh hs => by
    obtain ⟨q', h1, h2⟩ := hR a x a' es q hh.1 hh.2 hs
    exact ⟨q', h1, Abs.wf_step a x a' es hh.1 hs, h2⟩) bs _ _ es q0 ⟨Abs.wf_init s0, h0⟩ hb
  exact ⟨q, h1, h2.2⟩

/-- The same for clients that only make calls satisfying `P`. -/
theorem abs_inv_cl (o : Obj σ C K V E) (P : Tid → K → Prop) (s0 : σ) (as : List (Act K)) (s : Low σ C K V)
    (es : List (Ev K V E)) (h : runs (Low.step o) (Low.init s0) as = some (s, es))
    (hP : ∀ t k, Ev.call t k ∈ es → P t k) (I : Abs σ C K V → Prop) (h0 : I (Abs.init s0))
    (hI : ∀ a x a' es, a.Wf → I a → (∀ t k, x = .call t k → P t k) → a.step o x = some (a', es) → I a') :
    I s.abs := by
  obtain ⟨bs, hb⟩ := C22_critical_sections_atomic o s0 as s es h
  refine (runs_inv_ev (fun a => a.Wf ∧ I a) (fun e => ∀ t k, e = .call t k → P t k)
    (fun a x a' es hh hp hs => ⟨Abs.wf_step a x a' es hh.1 hs, hI a x a' es hh.1 hh.2 ?_ hs⟩) bs _ _ es
    ⟨Abs.wf_init s0, h0⟩ hb (fun e he t k hk => hP t k (hk ▸ he))).2
  rintro t k rfl
  simp only [Abs.step] at hs
  split at hs <;> cases hs
  exact hp _ (List.mem_cons_self ..) t k rfl

theorem abs_sim_cl {Q : Type} (o : Obj σ C K V E) (P : Tid → K → Prop) (acc : Q → Ev K V E → Option Q) (s0 : σ)
    (q0 : Q) (R : Abs σ C K V → Q → Prop) (h0 : R (Abs.init s0) q0)
    (hR : ∀ a x a' es q, a.Wf → R a q → (∀ t k, x = .call t k → P t k) → a.step o x = some (a', es) →
      ∃ q', accepts acc q es = some q' ∧ R a' q')
    (as : List (Act K)) (s : Low σ C K V) (es : List (Ev K V E))
    (h : runs (Low.step o) (Low.init s0) as = some (s, es)) (hP : ∀ t k, Ev.call t k ∈ es → P t k) :
    ∃ q, accepts acc q0 es = some q ∧ R s.abs q := by
  obtain ⟨bs, hb⟩ := C22_critical_sections_atomic o s0 as s es h
  obtain ⟨q, h1, h2⟩ := runs_sim_ev (acc := acc) (fun a q => a.Wf ∧ R a q) (fun e => ∀ t k, e = .call t k → P t k)
    (fun a x a' es q hh hp hs => by
      obtain ⟨q', h1, h2⟩ := hR a x a' es q hh.1 hh.2 (by
        rintro t k rfl
        simp only [Abs.step] at hs
        split at hs <;> cases hs
        exact hp _ (List.mem_cons_self ..) t k rfl) hs
      exact ⟨q', h1, Abs.wf_step a x a' es hh.1 hs, h2⟩) bs _ _ es q0 ⟨Abs.wf_init s0, h0⟩ hb
    (fun e he t k hk => hP t k (hk ▸ he))
  exact ⟨q, h1, h2.2⟩

theorem abs_path_cl {Q : Type} (o : Obj σ C K V E) (P : Tid → K → Prop) (T : Q → Ev K V E → Q → Prop) (s0 : σ)
    (q0 : Q) (R : Abs σ C K V → Q → Prop) (h0 : R (Abs.init s0) q0)
    (hR : ∀ a x a' es q, a.Wf → R a q → (∀ t k, x = .call t k → P t k) → a.step o x = some (a', es) →
      ∃ q', Path T q es q' ∧ R a' q')
    (as : List (Act K)) (s : Low σ C K V) (es : List (Ev K V E))
    (h : runs (Low.step o) (Low.init s0) as = some (s, es)) (hP : ∀ t k, Ev.call t k ∈ es → P t k) :
    ∃ q, Path T q0 es q ∧ R s.abs q := by
  obtain ⟨bs, hb⟩ := C22_critical_sections_atomic o s0 as s es h
  obtain ⟨q, h1, h2⟩ := runs_path (T := T) (fun a q => a.Wf ∧ R a q) (fun e => ∀ t k, e = .call t k → P t k)
    (fun a x a' es q hh hp hs => by
      obtain ⟨q', h1, h2⟩ := hR a x a' es q hh.1 hh.2 (by
        rintro t k rfl
        simp only [Abs.step] at hs
        split at hs <;> cases hs
        exact hp _ (List.mem_cons_self ..) t k rfl) hs
      exact ⟨q', h1, Abs.wf_step a x a' es hh.1 hs, h2⟩) bs _ _ es q0 ⟨Abs.wf_init s0, h0⟩ hb
    (fun e he t k hk => hP t k (hk ▸ he))
  exact ⟨q, h1, h2.2⟩

end
end Verif.Monitor
