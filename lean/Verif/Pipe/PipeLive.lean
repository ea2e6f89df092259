import Verif.Pipe.PipeProps
import Verif.Base.Sum

/-! # Do pipelines come to an end? (C40, C42) -/

namespace Verif.Pipe
open Verif

variable {α : Type}

/-- The weight of an item in channel `i` of a pipeline with `L` stages: more than all it can cause further down. (Concerns co_chan.h:22-278, co_pipeline.h:140-291.) -/
def wt (L i : Nat) : Nat := 3 * (L - i) + 1

/-- How many steps a worker can still take. (Concerns co_chan.h:22-278, co_pipeline.h:140-291.) -/
def wcost (L i : Nat) : W α → Nat
  | .get => 1
  | .put _ => wt L (i + 1) + 2
  | .done => 0

/-- How many steps stage `i` can still take without further input. (Concerns co_chan.h:22-278, co_pipeline.h:140-291.) -/
def pcost (L i : Nat) (g : Stage α) : Pc α → Nat
  | .get k _ => match g with
    | .skip n => if k < n then 4 else 3
    | _ => 3
  | .fold _ => wt L (i + 1) + 6
  | .put _ _ => wt L (i + 1) + 5
  | .close => 2
  | .cut => 1
  | .join ws => 3 + (ws.map (wcost L i)).sum
  | .done => 0

/-- How many steps the source can still take, with its items. (Concerns co_chan.h:22-278, co_pipeline.h:140-291.) -/
def scost (L n k : Nat) : Spc α → Nat
  | .gen => (n - k) * (wt L 0 + 4) + 2
  | .put _ => (n - k) * (wt L 0 + 4) + wt L 0 + 5
  | .wait => (n - k) * (wt L 0 + 4) + 3
  | .close => 1
  | .done => 0

/-- A bound for the number of steps. (Concerns co_chan.h:22-278, co_pipeline.h:140-291.) -/
def cost (l : List α) (gs : List (Stage α)) (s : State α) : Nat :=
  scost gs.length l.length s.k s.spc + sumOver (List.range (gs.length + 1)) (fun i => wt gs.length i * (s.ch i).data.length) +
  sumOver (List.range gs.length) (fun i => match gs[i]? with | some g => pcost gs.length i g (s.pc i) | none => 0) +
  (if s.eof then 0 else 1)

theorem sum_set {L i : Nat} {ws : List (W α)} {w : Nat} {x y : W α} (h : ws[w]? = some x) :
    ((ws.set w y).map (wcost L i)).sum + wcost L i x = (ws.map (wcost L i)).sum + wcost L i y := by
  induction ws generalizing w with
  | nil => simp at h
  | cons z ws ih =>
    cases w with
    | zero => simp at h; subst h; simp only [List.set_cons_zero, List.map_cons, List.sum_cons]; omega
    | succ w => simp at h; have := ih h; simp only [List.set_cons_succ, List.map_cons, List.sum_cons]; omega

theorem cmd_pop_cost {L i w : Nat} (hi : i < L) {g : Stage α} {pc : Pc α} {h : Option α → Pc α}
    (hc : g.cmd w pc = .pop h) : pcost L i g (h none) < pcost L i g pc ∧
    ∀ v, pcost L i g (h (some v)) < pcost L i g pc + wt L i := by
  have hw : wt L i = wt L (i + 1) + 3 := by simp [wt]; omega
  cases pc with
  | close => cases g <;> simp [Stage.cmd] at hc
  | cut => simp [Stage.cmd] at hc
  | done => simp [Stage.cmd] at hc
  | put k u => cases g <;> simp [Stage.cmd] at hc
  | fold a =>
    cases g <;> simp [Stage.cmd] at hc
    subst hc; simp [pcost]; omega
  | get k buf =>
    cases g <;> simp [Stage.cmd] at hc <;> subst hc
    · simp [pcost]; omega
    · refine ⟨by simp [pcost], fun v => ?_⟩
      dsimp only; split <;> simp [pcost] <;> omega
    · simp [pcost]; omega
    · rename_i n
      by_cases hk : k < n
      · refine ⟨by simp [pcost, hk], fun v => ?_⟩
        simp only [if_pos hk, pcost]; split <;> omega
      · refine ⟨by simp [pcost, hk], fun v => ?_⟩
        simp only [if_neg hk, pcost]; omega
    · refine ⟨by simp [pcost], fun v => ?_⟩
      dsimp only; split <;> simp [pcost] <;> omega
  | join ws =>
    cases g <;> simp [Stage.cmd] at hc
    cases hx : ws[w]? with
    | none => rw [hx] at hc; dsimp only at hc; split at hc <;> simp at hc
    | some x =>
      rw [hx] at hc
      cases x <;> simp at hc
      subst hc
      rename_i f
      refine ⟨?_, fun v => ?_⟩
      · have := sum_set (L := L) (i := i) (y := .done) hx
        simp [pcost, wcost] at this ⊢; omega
      · have := sum_set (L := L) (i := i) (y := .put (f v)) hx
        simp [pcost, wcost] at this ⊢; omega

theorem cmd_push_cost {L i w : Nat} {g : Stage α} (hok : g.Ok) {pc : Pc α} {v : α} {h : Bool → Pc α}
    (hc : g.cmd w pc = .push v h) : pcost L i g (h false) < pcost L i g pc ∧
    pcost L i g (h true) + wt L (i + 1) < pcost L i g pc := by
  cases pc with
  | close => cases g <;> simp [Stage.cmd] at hc
  | cut => simp [Stage.cmd] at hc
  | done => simp [Stage.cmd] at hc
  | get k u => cases g <;> simp [Stage.cmd] at hc
  | fold a => cases g <;> simp [Stage.cmd] at hc
  | put k u =>
    cases g <;> simp [Stage.cmd] at hc <;> obtain ⟨rfl, rfl⟩ := hc
    · simp [pcost]; omega
    · simp [pcost]; omega
    · refine ⟨by simp [pcost], ?_⟩
      dsimp only; split <;> simp [pcost] <;> omega
    · refine ⟨by simp [pcost], ?_⟩
      simp only [if_true, pcost]; split <;> omega
    · simp [pcost]; omega
    · rename_i n f
      have hn : n ≠ 0 := by intro e; simp [Stage.Ok] at hok; omega
      simp [pcost, hn]; omega
    · simp [pcost]; omega
  | join ws =>
    cases g <;> simp [Stage.cmd] at hc
    cases hx : ws[w]? with
    | none => rw [hx] at hc; dsimp only at hc; split at hc <;> simp at hc
    | some x =>
      rw [hx] at hc
      cases x <;> simp at hc
      obtain ⟨rfl, rfl⟩ := hc
      have h1 := sum_set (L := L) (i := i) (y := .done) hx
      have h2 := sum_set (L := L) (i := i) (y := .get) hx
      simp [pcost, wcost] at h1 h2 ⊢; omega

theorem cmd_other_cost {L i w : Nat} {g : Stage α} {pc h : Pc α}
    (hc : g.cmd w pc = .close h ∨ g.cmd w pc = .cut h ∨ g.cmd w pc = .tau h) : pcost L i g h < pcost L i g pc := by
  cases pc with
  | close => cases g <;> simp [Stage.cmd] at hc <;> subst hc <;> simp [pcost]
  | cut => simp [Stage.cmd] at hc; subst hc; simp [pcost]
  | done => simp [Stage.cmd] at hc
  | get k u => cases g <;> simp [Stage.cmd] at hc
  | fold a => cases g <;> simp [Stage.cmd] at hc
  | put k u => cases g <;> simp [Stage.cmd] at hc
  | join ws =>
    cases g <;> simp [Stage.cmd] at hc
    cases hx : ws[w]? with
    | none =>
      rw [hx] at hc; dsimp only at hc
      split at hc <;> simp at hc
      subst hc; simp [pcost]; omega
    | some x => rw [hx] at hc; cases x <;> simp at hc

/-- Changing the data of one channel. -/
theorem items_upd {gs : List (Stage α)} {ch : Nat → Chan α} {i : Nat} {c : Chan α} (hi : i ≤ gs.length) :
    sumOver (List.range (gs.length + 1)) (fun j => wt gs.length j * (upd ch i c j).data.length) + wt gs.length i * (ch i).data.length =
    sumOver (List.range (gs.length + 1)) (fun j => wt gs.length j * (ch j).data.length) + wt gs.length i * c.data.length := by
  have := sumOver_single (L := List.range (gs.length + 1)) (t := i)
    (f := fun j => wt gs.length j * (upd ch i c j).data.length) (g := fun j => wt gs.length j * (ch j).data.length)
    List.nodup_range (by simp; omega) (by intro u hu; simp [upd, hu])
  simpa [upd] using this

/-- Changing the state of one stage. -/
theorem procs_upd {gs : List (Stage α)} {pc : Nat → Pc α} {i : Nat} {g : Stage α} {q : Pc α} (hg : gs[i]? = some g) :
    sumOver (List.range gs.length) (fun j => match gs[j]? with | some g => pcost gs.length j g (upd pc i q j) | none => 0) +
      pcost gs.length i g (pc i) =
    sumOver (List.range gs.length) (fun j => match gs[j]? with | some g => pcost gs.length j g (pc j) | none => 0) +
      pcost gs.length i g q := by
  have hi : i < gs.length := by rw [List.getElem?_eq_some_iff] at hg; exact hg.1
  have := sumOver_single (L := List.range gs.length) (t := i)
    (f := fun j => match gs[j]? with | some g => pcost gs.length j g (upd pc i q j) | none => 0)
    (g := fun j => match gs[j]? with | some g => pcost gs.length j g (pc j) | none => 0)
    List.nodup_range (by simp; omega) (by intro u hu; simp [upd, hu])
  simpa [upd, hg] using this

/-- Every step makes the bound smaller. -/
theorem cost_step {l : List α} {kd : Kind} {gs : List (Stage α)} (hok : ∀ g ∈ gs, g.Ok) {s s' : State α} {a : Act}
    {es : List (Ev α)} (hs : (Pipe.ofList l kd gs).step s a = some (s', es)) : cost l gs s' < cost l gs s := by
  cases a with
  | src =>
    simp only [Pipe.step] at hs
    cases hp : s.spc with
    | done => simp [hp] at hs
    | gen =>
      rw [hp] at hs
      cases hv : (Pipe.ofList l kd gs).src s.k with
      | none =>
        simp only [hv, Option.some.injEq, Prod.mk.injEq] at hs
        obtain ⟨rfl, rfl⟩ := hs
        simp only [cost, hp, scost]; omega
      | some v =>
        simp only [hv, Option.some.injEq, Prod.mk.injEq] at hs
        obtain ⟨rfl, rfl⟩ := hs
        have hk : s.k < l.length := by
          simp only [Pipe.ofList, List.getElem?_eq_some_iff] at hv; exact hv.1
        have : l.length - s.k = (l.length - (s.k + 1)) + 1 := by omega
        simp only [cost, hp, scost, this, Nat.succ_mul]; omega
    | wait =>
      rw [hp] at hs
      dsimp only at hs
      split at hs <;> simp only [Option.some.injEq, Prod.mk.injEq, reduceCtorEq] at hs
      obtain ⟨rfl, rfl⟩ := hs
      simp only [cost, hp, scost]; omega
    | close =>
      rw [hp] at hs
      simp only [Option.some.injEq, Prod.mk.injEq] at hs
      obtain ⟨rfl, rfl⟩ := hs
      have h1 := items_upd (gs := gs) (ch := s.ch) (i := 0) (c := (s.ch 0).close .fin) (by omega)
      have h2 : ((s.ch 0).close .fin).data = (s.ch 0).data := rfl
      rw [h2] at h1
      simp only [cost, hp, scost]; omega
    | put v =>
      rw [hp] at hs
      dsimp only at hs
      split at hs
      · simp only [Option.some.injEq, Prod.mk.injEq] at hs
        obtain ⟨rfl, rfl⟩ := hs
        simp only [cost, hp, scost]; omega
      · split at hs <;> simp only [Option.some.injEq, Prod.mk.injEq, reduceCtorEq] at hs
        obtain ⟨rfl, rfl⟩ := hs
        have h1 := items_upd (gs := gs) (ch := s.ch) (i := 0) (c := (s.ch 0).push v) (by omega)
        have h2 : ((s.ch 0).push v).data.length = (s.ch 0).data.length + 1 := by simp [Chan.push]
        rw [h2, Nat.mul_succ] at h1
        by_cases hk : (Pipe.ofList l kd gs).kind = .sync
        · simp only [cost, hp, if_pos hk, scost]; omega
        · simp only [cost, hp, if_neg hk, scost]; omega
  | pop =>
    simp only [Pipe.step] at hs
    split at hs
    · simp at hs
    · rename_i he
      have hL : (Pipe.ofList l kd gs).stages.length = gs.length := rfl
      rw [hL] at hs
      cases hp : (s.ch gs.length).pop with
      | none => simp [hp] at hs
      | some r =>
        obtain ⟨o, c⟩ := r
        have h1 := items_upd (gs := gs) (ch := s.ch) (i := gs.length) (c := c) (by omega)
        obtain ⟨_, _, p3⟩ := pop_spec hp
        rw [hp] at hs
        rcases p3 with ⟨v, rfl, q1, q2⟩ | ⟨rfl, rfl, q1, q2⟩
        · simp only [Option.some.injEq, Prod.mk.injEq] at hs
          obtain ⟨rfl, rfl⟩ := hs
          rw [q2, List.length_cons, Nat.mul_succ] at h1
          have : wt gs.length gs.length = 1 := by simp [wt]
          simp only [cost]; omega
        · simp only [Option.some.injEq, Prod.mk.injEq] at hs
          obtain ⟨rfl, rfl⟩ := hs
          simp only [cost, if_true, if_neg he]; omega
  | run i w =>
    simp only [Pipe.step] at hs
    cases hg : (Pipe.ofList l kd gs).stages[i]? with
    | none => simp [hg] at hs
    | some g =>
      have hg' : gs[i]? = some g := hg
      have hi : i < gs.length := by rw [List.getElem?_eq_some_iff] at hg'; exact hg'.1
      have hgok := hok g (List.mem_of_getElem? hg')
      rw [hg] at hs
      dsimp only at hs
      cases hc : g.cmd w (s.pc i) with
      | stop => simp [hc] at hs
      | pop k =>
        rw [hc] at hs
        obtain ⟨c1, c2⟩ := cmd_pop_cost hi hc
        cases hp : (s.ch i).pop with
        | none => simp [hp] at hs
        | some r =>
          obtain ⟨o, c⟩ := r
          simp only [hp, Option.some.injEq, Prod.mk.injEq] at hs
          obtain ⟨rfl, rfl⟩ := hs
          have h1 := items_upd (gs := gs) (ch := s.ch) (i := i) (c := c) (by omega)
          have h2 := procs_upd (pc := s.pc) (q := k o) hg'
          obtain ⟨_, _, p3⟩ := pop_spec hp
          rcases p3 with ⟨v, rfl, q1, q2⟩ | ⟨rfl, rfl, q1, q2⟩
          · have := c2 v
            rw [q2, List.length_cons, Nat.mul_succ] at h1
            simp only [cost]; omega
          · simp only [cost]; omega
      | push v k =>
        rw [hc] at hs
        obtain ⟨c1, c2⟩ := cmd_push_cost (L := gs.length) (i := i) hgok hc
        dsimp only at hs
        split at hs <;> simp only [Option.some.injEq, Prod.mk.injEq] at hs <;> obtain ⟨rfl, rfl⟩ := hs
        · have h2 := procs_upd (pc := s.pc) (q := k false) hg'
          simp only [cost]; omega
        · have h2 := procs_upd (pc := s.pc) (q := k true) hg'
          have h1 := items_upd (gs := gs) (ch := s.ch) (i := i + 1) (c := (s.ch (i + 1)).push v) (by omega)
          have h3 : ((s.ch (i + 1)).push v).data.length = (s.ch (i + 1)).data.length + 1 := by simp [Chan.push]
          rw [h3, Nat.mul_succ] at h1
          simp only [cost]; omega
      | close q =>
        simp only [hc, Option.some.injEq, Prod.mk.injEq] at hs
        obtain ⟨rfl, rfl⟩ := hs
        have c1 := cmd_other_cost (L := gs.length) (i := i) (.inl hc)
        have h2 := procs_upd (pc := s.pc) (q := q) hg'
        have h1 := items_upd (gs := gs) (ch := s.ch) (i := i + 1) (c := (s.ch (i + 1)).close .fin) (by omega)
        have h3 : ((s.ch (i + 1)).close .fin).data = (s.ch (i + 1)).data := rfl
        rw [h3] at h1
        simp only [cost]; omega
      | cut q =>
        simp only [hc, Option.some.injEq, Prod.mk.injEq] at hs
        obtain ⟨rfl, rfl⟩ := hs
        have c1 := cmd_other_cost (L := gs.length) (i := i) (.inr (.inl hc))
        have h2 := procs_upd (pc := s.pc) (q := q) hg'
        have h1 := items_upd (gs := gs) (ch := s.ch) (i := i) (c := (s.ch i).close .cut) (by omega)
        have h3 : ((s.ch i).close .cut).data = (s.ch i).data := rfl
        rw [h3] at h1
        simp only [cost]; omega
      | tau q =>
        simp only [hc, Option.some.injEq, Prod.mk.injEq] at hs
        obtain ⟨rfl, rfl⟩ := hs
        have c1 := cmd_other_cost (L := gs.length) (i := i) (.inr (.inr hc))
        have h2 := procs_upd (pc := s.pc) (q := q) hg'
        simp only [cost]; omega

/-- **C40, C42 for a finite source**: no execution of the pipeline goes on for ever. -/
theorem C40_terminates {l : List α} {kd : Kind} {gs : List (Stage α)} (hok : ∀ g ∈ gs, g.Ok) :
    ¬ ∃ f : Nat → State α, ∀ n, ∃ a e, (Pipe.ofList l kd gs).step (f n) a = some (f (n + 1), e) := by
  rintro ⟨f, hf⟩
  have h : ∀ n, cost l gs (f n) + n ≤ cost l gs (f 0) := by
    intro n
    induction n with
    | zero => simp
    | succ n ih =>
      obtain ⟨a, e, hs⟩ := hf n
      have := cost_step hok hs
      omega
  have := h (cost l gs (f 0) + 1)
  omega

/-- A stage that cannot run has ended or waits for input. -/
theorem stuck_stage {P : Pipe α} {s : State α} (hI : Inv P s) {i : Nat} {g : Stage α} (hg : P.stages[i]? = some g)
    (hst : ∀ w, P.step s (.run i w) = none) : s.pc i = .done ∨ ((s.ch i).data = [] ∧ (s.ch i).st = .opened) := by
  have hl := hI.loc i g hg
  have hpop : ∀ w h, g.cmd w (s.pc i) = .pop h → (s.ch i).data = [] ∧ (s.ch i).st = .opened := by
    intro w h hc
    have := hst w
    simp only [Pipe.step, hg, hc] at this
    simp only [Chan.pop] at this
    split at this
    · rename_i hx
      split at hx
      · simp at hx
      · split at hx
        · exact ⟨‹_›, ‹_›⟩
        · simp at hx
    · simp at this
  have hpush : ∀ w v h, g.cmd w (s.pc i) ≠ .push v h := by
    intro w v h hc
    have := hst w
    simp only [Pipe.step, hg, hc] at this
    split at this <;> simp at this
  have hclose : ∀ w h, g.cmd w (s.pc i) ≠ .close h ∧ g.cmd w (s.pc i) ≠ .cut h ∧ g.cmd w (s.pc i) ≠ .tau h := by
    intro w h
    refine ⟨?_, ?_, ?_⟩ <;> intro hc <;> have := hst w <;> simp [Pipe.step, hg, hc] at this
  cases hp : s.pc i with
  | done => exact .inl rfl
  | close => rw [hp] at hclose; cases g <;> simp [Stage.cmd] at hclose
  | cut => rw [hp] at hclose; simp [Stage.cmd] at hclose
  | put k v => rw [hp] at hpush; cases g <;> simp [Stage.cmd] at hpush
  | fold a =>
    rw [hp] at hpop hl
    right
    cases g <;> simp only [Local] at hl
    exact hpop 0 _ rfl
  | get k buf =>
    rw [hp] at hpop hl
    right
    cases g <;> simp only [Local] at hl <;> exact hpop 0 _ rfl
  | join ws =>
    rw [hp] at hpop hl hpush hclose
    right
    cases g <;> simp only [Local] at hl
    by_cases hall : ws.all (fun | .done => true | _ => false) = true
    · exfalso
      refine (hclose ws.length .close).2.2 ?_
      have hw : ws[ws.length]? = none := by simp
      simp only [Stage.cmd, hw]
      exact if_pos hall
    · have : ∃ w : Nat, ∃ x : W α, ws[w]? = some x ∧ x ≠ .done := by
        rw [List.all_eq_true] at hall
        simp only [Classical.not_forall] at hall
        obtain ⟨x, hx, hne⟩ := hall
        obtain ⟨w, hw⟩ := List.getElem?_of_mem hx
        refine ⟨w, x, hw, ?_⟩
        rintro rfl; exact hne rfl
      obtain ⟨w, x, hw, hne⟩ := this
      cases x with
      | done => exact absurd rfl hne
      | put v => exact absurd (show (Stage.fork _ _).cmd w (.join ws) = .push v _ by simp only [Stage.cmd, hw]; rfl) (hpush w v _)
      | get => exact hpop w _ (by simp only [Stage.cmd, hw]; rfl)

/-- If nothing can run, the consumer got the end. -/
theorem stuck_eof {P : Pipe α} {s : State α} (hI : Inv P s) (hk : P.kind ≠ .fixed 0) (hst : ∀ a, P.step s a = none) :
    s.eof = true := by
  by_cases he : s.eof = true
  · exact he
  · exfalso
    have hdown : ∀ j, j ≤ P.stages.length → (s.ch (P.stages.length - j)).data = [] ∧ (s.ch (P.stages.length - j)).st = .opened := by
      intro j
      induction j with
      | zero =>
        intro _
        have := hst .pop
        simp only [Pipe.step, if_neg he, Chan.pop, Nat.sub_zero] at this ⊢
        split at this
        · rename_i hx
          split at hx
          · simp at hx
          · split at hx
            · exact ⟨‹_›, ‹_›⟩
            · simp at hx
        · simp at this
        · simp at this
      | succ j ih =>
        intro hj
        have h1 := ih (by omega)
        have e : P.stages.length - j = P.stages.length - (j + 1) + 1 := by omega
        rw [e] at h1
        generalize hi : P.stages.length - (j + 1) = i at h1
        have hil : i < P.stages.length := by omega
        have hg : P.stages[i]? = some P.stages[i] := List.getElem?_eq_getElem hil
        rcases stuck_stage hI hg (fun w => hst (.run i w)) with h | h
        · exact absurd h1.2 (hI.past i hil (.inl h))
        · exact h
    have h0 := hdown P.stages.length (Nat.le_refl _)
    rw [Nat.sub_self] at h0
    have hs := hst .src
    simp only [Pipe.step] at hs
    cases hp : s.spc with
    | done => exact hI.srcDone hp h0.2
    | gen => rw [hp] at hs; dsimp only at hs; split at hs <;> simp at hs
    | close => rw [hp] at hs; simp at hs
    | wait => rw [hp] at hs; simp [h0] at hs
    | put v =>
      rw [hp] at hs
      simp only [h0, ne_eq, not_true_eq_false, if_false] at hs
      cases hkd : P.kind with
      | unlimited => rw [hkd] at hs; simp [Kind.room] at hs
      | sync => rw [hkd] at hs; simp [Kind.room] at hs
      | fixed n =>
        rw [hkd] at hs hk
        have : n ≠ 0 := fun e => hk (by rw [e])
        simp [Kind.room] at hs; omega

/-- **C40, delivered in the end**: when nothing can run any more, the consumer got exactly the value of the list functions and the
end. (`.fixed 0` does not exist: `max_chan_size = 0` is `.sync`.) With `C40_terminates` this state is reached. -/
theorem C40_delivered_in_the_end {l : List α} {kd : Kind} {gs : List (Stage α)} (hk : kd ≠ .fixed 0)
    (hf : ∀ g ∈ gs, g.isFork = false) (hg : ∀ n f, Stage.group n f ∈ gs → 0 < n) {as : List Act} {s : State α} {tr : List (Ev α)}
    (h : runs (Pipe.ofList l kd gs).step (Pipe.ofList l kd gs).init as = some (s, tr))
    (hst : ∀ a, (Pipe.ofList l kd gs).step s a = none) :
    Ev.eof ∈ tr ∧ outs tr = gs.foldl (fun l g => g.fn l) l := by
  have hok : ∀ g ∈ gs, g.Ok := by
    intro g hm
    cases g with
    | group n f => exact hg n f hm
    | fork n f => exact absurd (hf _ hm) (by simp [Stage.isFork])
    | _ => trivial
  have he := stuck_eof (inv_runs (P := Pipe.ofList l kd gs) hok h) hk hst
  have he := (hist_runs h).eof.2 he
  exact ⟨he, (C40_delivers hf hg h).2 he⟩

/-- **C41, delivered in the end**. -/
theorem C41_delivered_in_the_end {l : List α} {kd : Kind} {n : Nat} {f : α → α} (hk : kd ≠ .fixed 0) (hn : 0 < n)
    {as : List Act} {s : State α} {tr : List (Ev α)}
    (h : runs (Pipe.ofList l kd [.fork n f]).step (Pipe.ofList l kd [.fork n f]).init as = some (s, tr))
    (hst : ∀ a, (Pipe.ofList l kd [.fork n f]).step s a = none) : Ev.eof ∈ tr ∧ (outs tr).Perm (l.map f) := by
  have he := stuck_eof (inv_runs (P := Pipe.ofList l kd [.fork n f]) (by simp [Pipe.ofList, Stage.Ok, hn]) h) hk hst
  have he := (hist_runs h).eof.2 he
  exact ⟨he, (C41_each_item_once hn h).2 he⟩

/-! ## C42 -/

/-- **C42 for a source of finitely many items**: when nothing can run any more, the source and all stages have ended; with
`C40_terminates` this happens in every execution. What is missing: endless sources. -/
theorem C42_finite_source_partial {l : List α} {gs : List (Stage α)} (hok : ∀ g ∈ gs, g.Ok) {as : List Act} {s : State α}
    {tr : List (Ev α)}
    (h : runs (Pipe.ofList l .unlimited gs).step (Pipe.ofList l .unlimited gs).init as = some (s, tr))
    (hst : ∀ a, (Pipe.ofList l .unlimited gs).step s a = none) : s.spc = .done ∧ ∀ i < gs.length, s.pc i = .done := by
  have hI := inv_runs (P := Pipe.ofList l .unlimited gs) hok h
  have hsrc : s.spc = .done := by
    have hs := hst .src
    simp only [Pipe.step] at hs
    cases hp : s.spc with
    | done => rfl
    | gen => rw [hp] at hs; dsimp only at hs; split at hs <;> simp at hs
    | close => rw [hp] at hs; simp at hs
    | wait =>
      -- only an unbuffered channel has this state
      exfalso
      have : s.spc ≠ .wait := by
        refine runs_inv (fun s : State α => s.spc ≠ .wait) ?_ as _ _ _ (by simp [Pipe.init]) h
        intro s a s' es hw hs
        cases a <;> simp only [Pipe.step] at hs <;> repeat' split at hs
        all_goals simp only [Option.some.injEq, Prod.mk.injEq, reduceCtorEq] at hs
        all_goals obtain ⟨rfl, rfl⟩ := hs
        all_goals first | exact hw | simp_all [Pipe.ofList]
      exact this hp
    | put v =>
      rw [hp] at hs
      dsimp only at hs
      split at hs
      · simp at hs
      · simp [Pipe.ofList, Kind.room] at hs
  refine ⟨hsrc, ?_⟩
  intro i
  induction i with
  | zero =>
    intro hi
    have hg : (Pipe.ofList l .unlimited gs).stages[0]? = some gs[0] := List.getElem?_eq_getElem hi
    rcases stuck_stage hI hg (fun w => hst (.run 0 w)) with h | h
    · exact h
    · exact absurd h.2 (hI.srcDone hsrc)
  | succ i ih =>
    intro hi
    have hg : (Pipe.ofList l .unlimited gs).stages[i + 1]? = some gs[i + 1] := List.getElem?_eq_getElem hi
    rcases stuck_stage hI hg (fun w => hst (.run (i + 1) w)) with h | h
    · exact h
    · exact absurd h.2 (hI.past i (by simp [Pipe.ofList]; omega) (.inl (ih (by omega))))

/-- `take` has closed its input when it has ended. -/
theorem take_closes {P : Pipe α} {n : Nat} {gs : List (Stage α)} (hP : P.stages = .take n :: gs) {as : List Act} {s : State α}
    {tr : List (Ev α)} (h : runs P.step P.init as = some (s, tr)) : s.pc 0 = .done → (s.ch 0).st ≠ .opened := by
  refine runs_inv (fun s : State α => s.pc 0 = .done → (s.ch 0).st ≠ .opened) ?_ as _ _ _ ?_ h
  · intro s a s' es hI hs
    cases a with
    | src =>
      simp only [Pipe.step] at hs
      repeat' split at hs
      all_goals simp only [Option.some.injEq, Prod.mk.injEq, reduceCtorEq] at hs
      all_goals obtain ⟨rfl, rfl⟩ := hs
      all_goals first
        | exact hI
        | (intro hd; have := hI hd; simp [upd, Chan.close] <;> first | exact this | (split <;> simp_all))
    | pop =>
      simp only [Pipe.step] at hs
      split at hs
      · simp at hs
      · have hne : P.stages.length ≠ 0 := by simp [hP]
        split at hs <;> simp only [Option.some.injEq, Prod.mk.injEq, reduceCtorEq] at hs <;> obtain ⟨rfl, rfl⟩ := hs <;>
          simpa [upd, Ne.symm hne] using hI
    | run i w =>
      simp only [Pipe.step] at hs
      by_cases hi : i = 0
      · subst hi
        simp only [hP, List.getElem?_cons_zero] at hs
        cases hc : (Stage.take n : Stage α).cmd w (s.pc 0) with
        | stop => simp [hc] at hs
        | pop k =>
          rw [hc] at hs
          cases hp : (s.ch 0).pop with
          | none => simp [hp] at hs
          | some r =>
            simp only [hp, Option.some.injEq, Prod.mk.injEq] at hs
            obtain ⟨rfl, rfl⟩ := hs
            obtain ⟨o, c⟩ := r
            intro hd
            exfalso
            cases hpp : s.pc 0 <;> rw [hpp] at hc <;> simp [Stage.cmd] at hc
            subst hc; cases o <;> simp [upd] at hd
        | push v k =>
          rw [hc] at hs
          have : ∀ b, k b ≠ .done := by
            cases hpp : s.pc 0 <;> rw [hpp] at hc <;> simp [Stage.cmd] at hc
            obtain ⟨-, rfl⟩ := hc; intro b; dsimp only; split <;> simp
          dsimp only at hs
          split at hs <;> simp only [Option.some.injEq, Prod.mk.injEq] at hs <;> obtain ⟨rfl, rfl⟩ := hs <;>
            simp [upd, this]
        | close q =>
          simp only [hc, Option.some.injEq, Prod.mk.injEq] at hs
          obtain ⟨rfl, rfl⟩ := hs
          have : q ≠ .done := by
            cases hpp : s.pc 0 <;> rw [hpp] at hc <;> simp [Stage.cmd] at hc
            subst hc; simp
          simp [upd, this]
        | cut q =>
          simp only [hc, Option.some.injEq, Prod.mk.injEq] at hs
          obtain ⟨rfl, rfl⟩ := hs
          intro _
          simp [upd, Chan.close]; split <;> simp_all
        | tau q =>
          exfalso
          cases hpp : s.pc 0 <;> rw [hpp] at hc <;> simp [Stage.cmd] at hc
      · cases hg : P.stages[i]? with
        | none => simp [hg] at hs
        | some g =>
          rw [hg] at hs
          dsimp only at hs
          repeat' split at hs
          all_goals simp only [Option.some.injEq, Prod.mk.injEq, reduceCtorEq] at hs
          all_goals obtain ⟨rfl, rfl⟩ := hs
          all_goals simpa [upd, Ne.symm hi] using hI
  · intro hd
    simp only [Pipe.init, hP, List.getElem?_cons_zero, Stage.start] at hd
    split at hd <;> simp at hd

/-- How far the source is from its end when its channel is closed. (Concerns co_chan.h:22-278, co_pipeline.h:140-291.) -/
def srank : Spc α → Nat
  | .wait => 4
  | .gen => 3
  | .put _ => 2
  | .close => 1
  | .done => 0

/-- When its channel is closed the source can run until it has ended, and gets there; others do not change this. -/
theorem closed_src {P : Pipe α} {s s' : State α} {a : Act} {es : List (Ev α)} (hc : (s.ch 0).st ≠ .opened)
    (hs : P.step s a = some (s', es)) : (s'.ch 0).st ≠ .opened ∧ (∀ v, Ev.acc 0 v ∉ es) ∧
    (a = .src → srank s'.spc < srank s.spc) ∧ (a ≠ .src → s'.spc = s.spc) := by
  cases a with
  | src =>
    simp only [Pipe.step] at hs
    cases hp : s.spc with
    | done => simp [hp] at hs
    | gen =>
      rw [hp] at hs
      dsimp only at hs
      split at hs <;> simp only [Option.some.injEq, Prod.mk.injEq] at hs <;> obtain ⟨rfl, rfl⟩ := hs <;> simp [srank, hc]
    | put v =>
      rw [hp] at hs
      dsimp only at hs
      rw [if_pos hc] at hs
      simp only [Option.some.injEq, Prod.mk.injEq] at hs
      obtain ⟨rfl, rfl⟩ := hs
      simp [srank, hc]
    | wait =>
      rw [hp] at hs
      dsimp only at hs
      rw [if_pos (.inl hc)] at hs
      simp only [Option.some.injEq, Prod.mk.injEq] at hs
      obtain ⟨rfl, rfl⟩ := hs
      simp [srank, hc]
    | close =>
      rw [hp] at hs
      simp only [Option.some.injEq, Prod.mk.injEq] at hs
      obtain ⟨rfl, rfl⟩ := hs
      simp [srank, upd, Chan.close, hc]
  | pop =>
    simp only [Pipe.step] at hs
    split at hs
    · simp at hs
    · split at hs
      · simp at hs
      all_goals
        rename_i c hp
        obtain ⟨q1, q2, q3⟩ := pop_all hp
        simp only [Option.some.injEq, Prod.mk.injEq] at hs
        obtain ⟨rfl, rfl⟩ := hs
        simp only [upd]
        refine ⟨?_, by simp, by simp, by simp⟩
        split
        · rename_i e; rw [q2, ← e]; exact hc
        · exact hc
  | run i w =>
    simp only [Pipe.step] at hs
    cases hg : P.stages[i]? with
    | none => simp [hg] at hs
    | some g =>
      rw [hg] at hs
      dsimp only at hs
      cases hcm : g.cmd w (s.pc i) with
      | stop => simp [hcm] at hs
      | pop k =>
        rw [hcm] at hs
        cases hp : (s.ch i).pop with
        | none => simp [hp] at hs
        | some r =>
          obtain ⟨o, c⟩ := r
          obtain ⟨q1, q2, q3⟩ := pop_all hp
          simp only [hp, Option.some.injEq, Prod.mk.injEq] at hs
          obtain ⟨rfl, rfl⟩ := hs
          refine ⟨?_, by simp, by simp, by simp⟩
          simp only [upd]
          split
          · rename_i e; rw [q2, ← e]; exact hc
          · exact hc
      | push v k =>
        rw [hcm] at hs
        dsimp only at hs
        split at hs <;> simp only [Option.some.injEq, Prod.mk.injEq] at hs <;> obtain ⟨rfl, rfl⟩ := hs <;> simp [upd, hc]
      | close q =>
        simp only [hcm, Option.some.injEq, Prod.mk.injEq] at hs
        obtain ⟨rfl, rfl⟩ := hs
        simp [upd, hc]
      | cut q =>
        simp only [hcm, Option.some.injEq, Prod.mk.injEq] at hs
        obtain ⟨rfl, rfl⟩ := hs
        refine ⟨?_, by simp, by simp, by simp⟩
        simp only [upd]
        split
        · rename_i e; subst e; simp [Chan.close, hc]
        · exact hc
      | tau q =>
        simp only [hcm, Option.some.injEq, Prod.mk.injEq] at hs
        obtain ⟨rfl, rfl⟩ := hs
        simp [hc]

/-- **C42 for `source | take(n) | …`, any source**: once the `take` has ended, the source pushes nothing more and comes to its end in
every execution that does not neglect it for ever when it can run. What is missing: stages between the source and the `take`. -/
theorem C42_next_to_source_partial {P : Pipe α} {n : Nat} {gs : List (Stage α)} (hP : P.stages = .take n :: gs) {as : List Act}
    {s : State α} {tr : List (Ev α)} (h : runs P.step P.init as = some (s, tr)) (hd : s.pc 0 = .done)
    (f : Nat → State α) (act : Nat → Act) (ev : Nat → List (Ev α)) (h0 : f 0 = s)
    (hrun : ∀ k, P.step (f k) (act k) = some (f (k + 1), ev k))
    (hfair : ∀ k, ∃ m, k ≤ m ∧ (act m = .src ∨ P.step (f m) .src = none)) :
    (∀ k v, Ev.acc 0 v ∉ ev k) ∧ ∃ k, ∀ m, k ≤ m → (f m).spc = .done := by
  have hc : ∀ k, ((f k).ch 0).st ≠ .opened := by
    intro k
    induction k with
    | zero => rw [h0]; exact take_closes hP h hd
    | succ k ih => exact (closed_src ih (hrun k)).1
  refine ⟨fun k => (closed_src (hc k) (hrun k)).2.1, ?_⟩
  have hle : ∀ k, srank (f (k + 1)).spc ≤ srank (f k).spc := by
    intro k
    obtain ⟨_, _, h3, h4⟩ := closed_src (hc k) (hrun k)
    by_cases e : act k = .src
    · have := h3 e; omega
    · rw [h4 e]; omega
  have hmono : ∀ k m, k ≤ m → srank (f m).spc ≤ srank (f k).spc := by
    intro k m hkm
    induction m with
    | zero => have : k = 0 := by omega
              subst this; omega
    | succ m ih =>
      by_cases e : k = m + 1
      · subst e; omega
      · have := ih (by omega); have := hle m; omega
  have hen : ∀ k, (f k).spc ≠ .done → P.step (f k) .src ≠ none := by
    intro k hk
    have hck := hc k
    simp only [Pipe.step]
    cases hp : (f k).spc with
    | done => exact absurd hp hk
    | gen => dsimp only; split <;> simp
    | close => simp
    | wait => dsimp only; rw [if_pos (.inl hck)]; simp
    | put v => dsimp only; rw [if_pos hck]; simp
  have hz : ∀ p : Spc α, srank p = 0 → p = .done := by intro p; cases p <;> simp [srank]
  have key : ∀ r k, srank (f k).spc = r → ∃ m, srank (f m).spc = 0 := by
    intro r
    induction r using Nat.strongRecOn with
    | _ r ih =>
      intro k hk
      by_cases hr : r = 0
      · exact ⟨k, by omega⟩
      · obtain ⟨m, hm1, hm2⟩ := hfair k
        by_cases e : srank (f m).spc < r
        · exact ih _ e m rfl
        · have hm : srank (f m).spc = r := by have := hmono k m hm1; omega
          have hnd : (f m).spc ≠ .done := by intro e; rw [e] at hm; simp [srank] at hm; omega
          rcases hm2 with hm2 | hm2
          · have := (closed_src (hc m) (hrun m)).2.2.1 hm2
            exact ih _ (by omega) (m + 1) rfl
          · exact absurd hm2 (hen m hnd)
  obtain ⟨m, hm⟩ := key _ 0 rfl
  exact ⟨m, fun k hk => hz _ (by have := hmono m k hk; omega)⟩

/-- The stages that close their input channel: `take` (434) and `group` (319). (Concerns co_chan.h:22-278, co_pipeline.h:140-291.) -/
def Stage.cuts : Stage α → Bool
  | .take _ => true
  | .group _ _ => true
  | _ => false

/-- The source at work, its channel open and not about to be closed. (Concerns co_chan.h:22-278, co_pipeline.h:140-291.) -/
def Going (s : State α) : Prop := ((s.ch 0).st = .opened ∧ s.pc 0 ≠ .cut) ∧ (s.spc = .gen ∨ ∃ v, s.spc = .put v)

theorem going_step {P : Pipe α} {g : Stage α} {gs : List (Stage α)} (hP : P.stages = g :: gs) (hg : g.cuts = false)
    (hk : P.kind = .unlimited) (hsrc : ∀ k, P.src k ≠ none) {s s' : State α} {a : Act} {es : List (Ev α)} (hI : Going s)
    (hs : P.step s a = some (s', es)) : Going s' := by
  obtain ⟨⟨h1, h1'⟩, h2⟩ := hI
  cases a with
  | src =>
    simp only [Pipe.step] at hs
    rcases h2 with h2 | ⟨v, h2⟩
    · rw [h2] at hs
      dsimp only at hs
      split at hs
      · exact absurd ‹_› (hsrc _)
      · simp only [Option.some.injEq, Prod.mk.injEq] at hs
        obtain ⟨rfl, rfl⟩ := hs
        exact ⟨⟨h1, h1'⟩, .inr ⟨_, rfl⟩⟩
    · rw [h2] at hs
      simp [h1, hk, Kind.room] at hs
      obtain ⟨rfl, rfl⟩ := hs
      exact ⟨⟨by simp [upd, Chan.push, h1], h1'⟩, .inl rfl⟩
  | pop =>
    simp only [Pipe.step] at hs
    have hne : P.stages.length ≠ 0 := by simp [hP]
    split at hs
    · simp at hs
    · split at hs <;> simp only [Option.some.injEq, Prod.mk.injEq, reduceCtorEq] at hs <;> obtain ⟨rfl, rfl⟩ := hs <;>
        exact ⟨⟨by simpa [upd, Ne.symm hne] using h1, h1'⟩, h2⟩
  | run i w =>
    simp only [Pipe.step] at hs
    by_cases hi : i = 0
    · subst hi
      simp only [hP, List.getElem?_cons_zero] at hs
      cases hcm : g.cmd w (s.pc 0) with
      | stop => simp [hcm] at hs
      | pop k =>
        rw [hcm] at hs
        cases hp : (s.ch 0).pop with
        | none => simp [hp] at hs
        | some r =>
          obtain ⟨o, c⟩ := r
          obtain ⟨q1, q2, q3⟩ := pop_all hp
          simp only [hp, Option.some.injEq, Prod.mk.injEq] at hs
          obtain ⟨rfl, rfl⟩ := hs
          refine ⟨⟨by simp [upd, q2, h1], ?_⟩, h2⟩
          have : k o ≠ .cut := by
            cases hpp : s.pc 0 <;> rw [hpp] at hcm <;> cases g <;> simp [Stage.cmd] at hcm
            all_goals first
              | (subst hcm; cases o <;> simp; done)
              | (subst hcm; cases o <;> simp <;> split <;> simp; done)
              | skip
            rename_i ws n f
            cases hw : ws[w]? with
            | none => rw [hw] at hcm; dsimp only at hcm; split at hcm <;> simp at hcm
            | some x =>
              rw [hw] at hcm
              cases x <;> simp at hcm
              subst hcm; cases o <;> simp
          simpa [upd] using this
      | push v k =>
        rw [hcm] at hs
        have : ∀ b, k b ≠ .cut := by
          intro b
          cases hpp : s.pc 0 <;> rw [hpp] at hcm <;> cases g <;> simp [Stage.cmd, Stage.cuts] at hcm hg
          all_goals first
            | (rw [← hcm.2]; simp; done)
            | (rw [← hcm.2]; dsimp only; split <;> simp; done)
            | skip
          rename_i ws n f
          cases hw : ws[w]? with
          | none => rw [hw] at hcm; dsimp only at hcm; split at hcm <;> simp at hcm
          | some x =>
            rw [hw] at hcm
            cases x <;> simp at hcm
            rw [← hcm.2]; simp
        dsimp only at hs
        split at hs <;> simp only [Option.some.injEq, Prod.mk.injEq] at hs <;> obtain ⟨rfl, rfl⟩ := hs <;>
          exact ⟨⟨by simpa [upd] using h1, by simpa [upd] using this _⟩, h2⟩
      | close q =>
        simp only [hcm, Option.some.injEq, Prod.mk.injEq] at hs
        obtain ⟨rfl, rfl⟩ := hs
        have : q ≠ .cut := by
          cases hpp : s.pc 0 <;> rw [hpp] at hcm <;> cases g <;> simp [Stage.cmd, Stage.cuts] at hcm hg
          all_goals first
            | (subst hcm; simp; done)
            | skip
          rename_i ws n f
          cases hw : ws[w]? with
          | none => rw [hw] at hcm; dsimp only at hcm; split at hcm <;> simp at hcm
          | some x => rw [hw] at hcm; cases x <;> simp at hcm
        exact ⟨⟨by simpa [upd] using h1, by simpa [upd] using this⟩, h2⟩
      | cut q =>
        exfalso
        cases hpp : s.pc 0 <;> rw [hpp] at hcm <;> cases g <;> simp [Stage.cmd] at hcm
        all_goals first
          | exact h1' hpp
          | skip
        rename_i ws n f
        cases hw : ws[w]? with
        | none => rw [hw] at hcm; dsimp only at hcm; split at hcm <;> simp at hcm
        | some x => rw [hw] at hcm; cases x <;> simp at hcm
      | tau q =>
        simp only [hcm, Option.some.injEq, Prod.mk.injEq] at hs
        obtain ⟨rfl, rfl⟩ := hs
        have : q ≠ .cut := by
          cases hpp : s.pc 0 <;> rw [hpp] at hcm <;> cases g <;> simp [Stage.cmd] at hcm
          rename_i ws n f
          cases hw : ws[w]? with
          | none => rw [hw] at hcm; dsimp only at hcm; split at hcm <;> simp at hcm; subst hcm; simp
          | some x => rw [hw] at hcm; cases x <;> simp at hcm
        exact ⟨⟨h1, by simpa [upd] using this⟩, h2⟩
    · cases hg : P.stages[i]? with
      | none => simp [hg] at hs
      | some g =>
        rw [hg] at hs
        dsimp only at hs
        repeat' split at hs
        all_goals simp only [Option.some.injEq, Prod.mk.injEq, reduceCtorEq] at hs
        all_goals obtain ⟨rfl, rfl⟩ := hs
        all_goals exact ⟨⟨by simpa [upd, Ne.symm hi] using h1, by simpa [upd, Ne.symm hi] using h1'⟩, h2⟩

theorem going_init {P : Pipe α} {g : Stage α} {gs : List (Stage α)} (hP : P.stages = g :: gs) (hg : g.cuts = false) :
    Going P.init := by
  refine ⟨⟨rfl, ?_⟩, .inl rfl⟩
  simp only [Pipe.init, hP, List.getElem?_cons_zero]
  cases g <;> simp [Stage.start, Stage.cuts] at hg ⊢

/-- **C42 is false with another stage behind the source**: an endless source with an unlimited channel never stops if the next
stage is not a `take` or `group`, whatever comes after it and whatever happens: in every reachable state it can run on. -/
theorem C42_source_never_stops {P : Pipe α} {g : Stage α} {gs : List (Stage α)} (hP : P.stages = g :: gs) (hg : g.cuts = false)
    (hk : P.kind = .unlimited) (hsrc : ∀ k, P.src k ≠ none) {as : List Act} {s : State α} {tr : List (Ev α)}
    (h : runs P.step P.init as = some (s, tr)) : s.spc ≠ .done ∧ P.step s .src ≠ none := by
  have hI : Going s := runs_inv Going (fun _ _ _ _ hI hs => going_step hP hg hk hsrc hI hs) as _ _ _ (going_init hP hg) h
  obtain ⟨⟨h1, _⟩, h2⟩ := hI
  rcases h2 with h2 | ⟨v, h2⟩
  · refine ⟨by simp [h2], ?_⟩
    simp only [Pipe.step, h2]
    split <;> simp
  · refine ⟨by simp [h2], ?_⟩
    simp [Pipe.step, h2, h1, hk, Kind.room]

/-- **C42 is false for `filter`**: when nothing more passes, a `filter` never pushes and so never finds out that its output was
closed by a `take`. It reads the endless source for ever: whatever happens, it stays in its loop. -/
theorem C42_filter_never_stops {P : Pipe α} {p : α → Bool} {gs : List (Stage α)} (hP : P.stages = .filter p :: gs)
    (hk : P.kind = .unlimited) (hsrc : ∀ k, P.src k ≠ none) {as bs : List Act} {s s' : State α} {tr tr' : List (Ev α)}
    (h : runs P.step P.init as = some (s, tr)) (hg : s.pc 0 = .get 0 []) (hd : ∀ v ∈ (s.ch 0).data, p v = false)
    (hq : ∀ v, s.spc = .put v → p v = false) (hn : ∀ k v, s.k ≤ k → P.src k = some v → p v = false)
    (h' : runs P.step s bs = some (s', tr')) : s'.pc 0 = .get 0 [] := by
  have hI : Going s := runs_inv Going (fun _ _ _ _ hI hs => going_step hP rfl hk hsrc hI hs) as _ _ _ (going_init hP rfl) h
  refine (runs_inv (fun s : State α => (Going s ∧ s.pc 0 = .get 0 [] ∧ (∀ v ∈ (s.ch 0).data, p v = false)) ∧
    (∀ v, s.spc = .put v → p v = false) ∧ (∀ k v, s.k ≤ k → P.src k = some v → p v = false)) ?_ bs _ _ _
    ⟨⟨hI, hg, hd⟩, hq, hn⟩ h').1.2.1
  intro s a s' es ⟨⟨h1, h2, h3⟩, h4, h5⟩ hs
  have h1' := going_step hP rfl hk hsrc h1 hs
  obtain ⟨⟨o1, _⟩, o2⟩ := h1
  cases a with
  | src =>
    simp only [Pipe.step] at hs
    rcases o2 with o2 | ⟨v, o2⟩
    · rw [o2] at hs
      dsimp only at hs
      split at hs
      · exact absurd ‹_› (hsrc _)
      · rename_i v hv
        simp only [Option.some.injEq, Prod.mk.injEq] at hs
        obtain ⟨rfl, rfl⟩ := hs
        refine ⟨⟨h1', h2, h3⟩, ?_, ?_⟩
        · intro u hu
          simp only [Spc.put.injEq] at hu
          subst hu
          exact h5 _ _ (Nat.le_refl _) hv
        · intro k u hle
          exact h5 k u (by simp only at hle; omega)
    · rw [o2] at hs
      simp [o1, hk, Kind.room] at hs
      obtain ⟨rfl, rfl⟩ := hs
      refine ⟨⟨h1', h2, ?_⟩, by simp, h5⟩
      intro u hu
      simp [upd, Chan.push] at hu
      rcases hu with hu | rfl
      · exact h3 u hu
      · exact h4 u o2
  | pop =>
    simp only [Pipe.step] at hs
    have hne : P.stages.length ≠ 0 := by simp [hP]
    split at hs
    · simp at hs
    · split at hs <;> simp only [Option.some.injEq, Prod.mk.injEq, reduceCtorEq] at hs <;> obtain ⟨rfl, rfl⟩ := hs <;>
        exact ⟨⟨h1', h2, by simpa [upd, Ne.symm hne] using h3⟩, h4, h5⟩
  | run i w =>
    simp only [Pipe.step] at hs
    by_cases hi : i = 0
    · subst hi
      simp only [hP, List.getElem?_cons_zero, h2, Stage.cmd] at hs
      cases hp : (s.ch 0).pop with
      | none => simp [hp] at hs
      | some r =>
        obtain ⟨o, c⟩ := r
        obtain ⟨q1, q2, q3⟩ := pop_spec hp
        simp only [hp, Option.some.injEq, Prod.mk.injEq] at hs
        obtain ⟨rfl, rfl⟩ := hs
        rcases q3 with ⟨v, rfl, r1, r2⟩ | ⟨rfl, rfl, r1, r2⟩
        · have hv : p v = false := h3 v (by rw [r2]; simp)
          refine ⟨⟨h1', by simp [upd, hv], ?_⟩, h4, h5⟩
          intro u hu
          simp only [upd, if_true] at hu
          exact h3 u (by rw [r2]; simp [hu])
        · exact absurd o1 r2
    · cases hg : P.stages[i]? with
      | none => simp [hg] at hs
      | some g =>
        rw [hg] at hs
        dsimp only at hs
        repeat' split at hs
        all_goals simp only [Option.some.injEq, Prod.mk.injEq, reduceCtorEq] at hs
        all_goals obtain ⟨rfl, rfl⟩ := hs
        all_goals exact ⟨⟨h1', by simpa [upd, Ne.symm hi] using h2, by simpa [upd, Ne.symm hi] using h3⟩, h4, h5⟩

/-- **C42 is false for a bounded source channel**: if the stage behind the source ended without closing the channel, the source is
parked in its push for ever. -/
theorem C42_bounded_source_parked {P : Pipe α} {g : Stage α} {gs : List (Stage α)} (hP : P.stages = g :: gs) {bs : List Act}
    {s s' : State α} {tr : List (Ev α)} {v : α} (hd : s.pc 0 = .done) (ho : (s.ch 0).st = .opened) (hp : s.spc = .put v)
    (hr : P.kind.room (s.ch 0).data.length = false) (h : runs P.step s bs = some (s', tr)) :
    s'.spc = .put v ∧ P.step s' .src = none := by
  have key : ∀ s : State α, ((s.ch 0).st = .opened ∧ s.pc 0 = .done) ∧ s.spc = .put v ∧
      P.kind.room (s.ch 0).data.length = false → P.step s .src = none := by
    intro s ⟨⟨h1, h2⟩, h3, h4⟩
    simp [Pipe.step, h3, h1, h4]
  have hI := runs_inv (fun s : State α => ((s.ch 0).st = .opened ∧ s.pc 0 = .done) ∧ s.spc = .put v ∧
      P.kind.room (s.ch 0).data.length = false) ?_ bs _ _ _ ⟨⟨ho, hd⟩, hp, hr⟩ h
  · exact ⟨hI.2.1, key _ hI⟩
  · intro s a s' es hI hs
    have hk := key s hI
    obtain ⟨⟨h1, h2⟩, h3, h4⟩ := hI
    cases a with
    | src => rw [hk] at hs; simp at hs
    | pop =>
      simp only [Pipe.step] at hs
      have hne : P.stages.length ≠ 0 := by simp [hP]
      split at hs
      · simp at hs
      · split at hs <;> simp only [Option.some.injEq, Prod.mk.injEq, reduceCtorEq] at hs <;> obtain ⟨rfl, rfl⟩ := hs <;>
          exact ⟨⟨by simpa [upd, Ne.symm hne] using h1, h2⟩, h3, by simpa [upd, Ne.symm hne] using h4⟩
    | run i w =>
      simp only [Pipe.step] at hs
      by_cases hi : i = 0
      · subst hi
        simp [hP, h2, Stage.cmd] at hs
      · cases hg : P.stages[i]? with
        | none => simp [hg] at hs
        | some g =>
          rw [hg] at hs
          dsimp only at hs
          repeat' split at hs
          all_goals simp only [Option.some.injEq, Prod.mk.injEq, reduceCtorEq] at hs
          all_goals obtain ⟨rfl, rfl⟩ := hs
          all_goals exact ⟨⟨by simpa [upd, Ne.symm hi] using h1, by simpa [upd, Ne.symm hi] using h2⟩, h3,
            by simpa [upd, Ne.symm hi] using h4⟩

/-- `0, 1, 2, … | (+1) | take 1`: the `take` has delivered and ended, the map has ended, and the source goes on. -/
example : events ⟨fun k => some k, .unlimited, [.map (· + 1), .take 1]⟩
    [.src, .src, .run 0 0, .run 0 0, .run 1 0, .run 1 0, .run 1 0, .run 1 0, .pop, .pop, .src, .src, .run 0 0, .run 0 0, .run 0 0,
      .src, .src, .src, .src] =
    some [.acc 0 0, .acc 1 1, .acc 2 1, .cls 2, .cut 1, .out 1, .eof, .acc 0 1, .cls 1, .acc 0 2, .acc 0 3] := by decide

/-- `0, 1, 2, … | take 1`: the source ends. -/
example : ((runs (⟨fun k => some k, .unlimited, [.take 1]⟩ : Pipe Nat).step (⟨fun k => some k, .unlimited, [.take 1]⟩ : Pipe Nat).init
    [.src, .src, .run 0 0, .run 0 0, .run 0 0, .run 0 0, .src, .src, .src]).map fun p => (p.1.spc, p.1.pc 0)) =
    some (.done, .done) := by decide

/-- `0, 1, 2, … | (< 1) | take 1`: the `take` has ended, the filter is in its loop and nothing more will pass. -/
example : ((runs (⟨fun k => some k, .unlimited, [.filter (· < 1), .take 1]⟩ : Pipe Nat).step
    (⟨fun k => some k, .unlimited, [.filter (· < 1), .take 1]⟩ : Pipe Nat).init
    [.src, .src, .run 0 0, .run 0 0, .run 1 0, .run 1 0, .run 1 0, .run 1 0, .src, .src, .run 0 0, .src, .src]).map fun p =>
      (p.1.pc 0, p.1.pc 1, (p.1.ch 0).data, p.1.k)) = some (.get 0 [], .done, [2], 3) := by decide

/-- `0, 1, 2, … | (+1) | take 1` with a source channel of one place: the source is parked in its push, the others have ended. -/
example : ((runs (⟨fun k => some k, .fixed 1, [.map (· + 1), .take 1]⟩ : Pipe Nat).step
    (⟨fun k => some k, .fixed 1, [.map (· + 1), .take 1]⟩ : Pipe Nat).init
    [.src, .src, .run 0 0, .run 0 0, .run 1 0, .run 1 0, .run 1 0, .run 1 0, .src, .src, .run 0 0, .run 0 0, .run 0 0, .src, .src,
      .src]).map fun p => (p.1.spc, p.1.pc 0, p.1.pc 1, (p.1.ch 0).data)) = some (.put 3, .done, .done, [2]) := by decide

end Verif.Pipe
