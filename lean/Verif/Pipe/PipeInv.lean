import Verif.Pipe.Pipe

/-! # Invariants of pipelines -/

namespace Verif.Pipe
open Verif

variable {α : Type}

/-- The values in the hands of the workers. (Concerns co_chan.h:22-278, co_pipeline.h:140-291.) -/
def wvals : List (W α) → List α
  | [] => []
  | .put v :: ws => v :: wvals ws
  | _ :: ws => wvals ws

/-- The groups of a list. (Concerns co_chan.h:22-278, co_pipeline.h:140-291.) -/
def groups (n : Nat) (f : List α → α) (m : Nat) (X : List α) : List α :=
  (List.range m).map fun i => f ((X.drop (i * n)).take n)

/-- The stage pushed the part `out` of its result, all of it unless its channel was cut. (Concerns co_chan.h:22-278, co_pipeline.h:140-291.) -/
def End (g : Stage α) (inp : List α) (dr cutOut : Prop) (out : List α) : Prop :=
  ∀ X, inp <+: X → (dr → X = inp) → ∃ Y, g.Den X Y ∧ out <+: Y ∧ (¬ cutOut → Y = out)

/-- What stage `g` at `pc` has popped (`inp`) and pushed (`out`). `dr`: its input is closed and empty. `cutOut`: its reader
closed its channel. (Concerns co_chan.h:22-278, co_pipeline.h:140-291.) -/
def Local (g : Stage α) (pc : Pc α) (inp : List α) (dr cutOut : Prop) (out : List α) : Prop :=
  match pc with
  | .get k buf => match g with
    | .map f => out = inp.map f
    | .filter p => out = inp.filter p
    | .take n => out = inp ∧ inp.length = k ∧ k < n
    | .skip n => out = inp.drop n ∧ ((k < n ∧ inp.length = k) ∨ (k = n ∧ (n ≤ inp.length ∨ dr)))
    | .group n f => ∃ m, inp.length = m * n + buf.length ∧ buf.length < n ∧ buf = inp.drop (m * n) ∧ out = groups n f m inp
    | _ => False
  | .fold a => match g with
    | .reduce f z => out = [] ∧ a = inp.foldl f z
    | _ => False
  | .put k v => match g with
    | .map f => out ++ [v] = inp.map f
    | .filter p => out ++ [v] = inp.filter p
    | .take n => out ++ [v] = inp ∧ inp.length = k + 1 ∧ k < n
    | .skip n => out ++ [v] = inp.drop n ∧ k = n ∧ n ≤ inp.length
    | .reduce f z => out = [] ∧ v = inp.foldl f z ∧ dr
    | .group n f => ∃ m, inp.length = m * n ∧ out ++ [v] = groups n f m inp
    | _ => False
  | .join ws => match g with
    | .fork n f => ws.length = n ∧ (∃ lost, (out ++ wvals ws ++ lost).Perm (inp.map f) ∧ (lost ≠ [] → cutOut)) ∧
        ∀ w ∈ ws, w = .done → dr ∨ cutOut
    | _ => False
  | .close => End g inp dr cutOut out
  | .cut => End g inp dr cutOut out
  | .done => End g inp dr cutOut out

theorem groups_prefix {n m : Nat} {f : List α → α} {X Y : List α} (h : X <+: Y) (hm : m * n ≤ X.length) :
    groups n f m X = groups n f m Y := by
  obtain ⟨Z, rfl⟩ := h
  unfold groups
  apply List.map_congr_left
  intro i hi
  have hi := List.mem_range.1 hi
  have : (i + 1) * n ≤ m * n := Nat.mul_le_mul_right n hi
  rw [Nat.succ_mul] at this
  congr 1
  rw [List.drop_append_of_le_length (by omega), List.take_append_of_le_length (by simp; omega)]

theorem groups_succ {n m : Nat} {f : List α → α} {X : List α} :
    groups n f (m + 1) X = groups n f m X ++ [f ((X.drop (m * n)).take n)] := by
  simp [groups, List.range_succ]

theorem groups_mono {n m m' : Nat} {f : List α → α} {X : List α} (h : m ≤ m') : groups n f m X <+: groups n f m' X := by
  induction m' with
  | zero => simp at h; subst h; exact List.prefix_rfl
  | succ k ih =>
    by_cases e : m = k + 1
    · subst e; exact List.prefix_rfl
    · rw [groups_succ]
      exact (ih (by omega)).trans (List.prefix_append _ _)

theorem part_groups {n m : Nat} {f : List α → α} {inp X out : List α} (hn : 0 < n) (h : inp <+: X) (hm : m * n ≤ inp.length)
    (ho : out <+: groups n f m inp) : ∃ Y, (Stage.group n f).Den X Y ∧ out <+: Y := by
  refine ⟨_, rfl, ?_⟩
  rw [groups_prefix h hm] at ho
  refine ho.trans (groups_mono ?_)
  rw [Nat.le_div_iff_mul_le hn]
  exact Nat.le_trans hm h.length_le

theorem part_fork {n : Nat} {f : α → α} {inp X out rest : List α} (h : inp <+: X) (hp : (out ++ rest).Perm (inp.map f)) :
    ∃ Y, (Stage.fork n f).Den X Y ∧ out <+: Y := by
  obtain ⟨Z, rfl⟩ := h
  refine ⟨out ++ (rest ++ Z.map f), ?_, List.prefix_append _ _⟩
  simp only [Stage.Den, List.map_append, ← List.append_assoc]
  exact hp.append_right _

theorem prefix_of_snoc {l m : List α} {v : α} (h : l ++ [v] = m) : l <+: m := ⟨[v], h⟩

theorem End.part {g : Stage α} {inp out : List α} {dr cutOut : Prop} (h : End g inp dr cutOut out) {X : List α}
    (hX : inp <+: X) (hd : dr → X = inp) : ∃ Y, g.Den X Y ∧ out <+: Y := by
  obtain ⟨Y, h1, h2, _⟩ := h X hX hd
  exact ⟨Y, h1, h2⟩

/-- What a stage has pushed is part of a possible result. -/
theorem Local.part {g : Stage α} {pc : Pc α} {inp out : List α} {dr cutOut : Prop} (hok : g.Ok)
    (h : Local g pc inp dr cutOut out) {X : List α} (hX : inp <+: X) (hd : dr → X = inp) :
    ∃ Y, g.Den X Y ∧ out <+: Y := by
  cases pc with
  | close => exact End.part h hX hd
  | cut => exact End.part h hX hd
  | done => exact End.part h hX hd
  | fold a =>
    cases g <;> simp only [Local] at h
    exact ⟨_, rfl, by simp [h.1]⟩
  | join ws =>
    cases g <;> simp only [Local] at h
    obtain ⟨_, ⟨lost, h1, _⟩, _⟩ := h
    rw [List.append_assoc] at h1
    exact part_fork hX h1
  | get k buf =>
    cases g <;> simp only [Local] at h
    · exact ⟨_, rfl, by rw [h]; exact hX.map _⟩
    · exact ⟨_, rfl, by rw [h]; exact hX.filter _⟩
    · refine ⟨_, rfl, ?_⟩
      rw [h.1, List.prefix_take_iff]; exact ⟨hX, by omega⟩
    · refine ⟨_, rfl, ?_⟩
      rw [h.1]; obtain ⟨Z, rfl⟩ := hX
      rw [List.drop_append]; exact List.prefix_append _ _
    · obtain ⟨m, h1, h2, h3, h4⟩ := h
      exact part_groups (m := m) hok hX (by omega) (by rw [h4]; exact List.prefix_rfl)
  | put k v =>
    cases g <;> simp only [Local] at h
    · exact ⟨_, rfl, (prefix_of_snoc h).trans (hX.map _)⟩
    · exact ⟨_, rfl, (prefix_of_snoc h).trans (hX.filter _)⟩
    · refine ⟨_, rfl, (prefix_of_snoc h.1).trans ?_⟩
      rw [List.prefix_take_iff]; exact ⟨hX, by omega⟩
    · refine ⟨_, rfl, (prefix_of_snoc h.1).trans ?_⟩
      obtain ⟨Z, rfl⟩ := hX
      rw [List.drop_append]; exact List.prefix_append _ _
    · exact ⟨_, rfl, by simp [h.1]⟩
    · obtain ⟨m, h1, h2⟩ := h
      exact part_groups hok hX (by omega) (prefix_of_snoc h2)

/-- Its channel was cut: the stage need not push any more. -/
theorem end_of_cut {g : Stage α} {inp out : List α} {dr cutOut : Prop} (hc : cutOut)
    (h : ∀ X, inp <+: X → (dr → X = inp) → ∃ Y, g.Den X Y ∧ out <+: Y) : End g inp dr cutOut out := by
  intro X hX hd
  obtain ⟨Y, h1, h2⟩ := h X hX hd
  exact ⟨Y, h1, h2, fun hn => absurd hc hn⟩

/-- Its input is drained and the result complete. -/
theorem end_of_drained {g : Stage α} {inp out : List α} {dr cutOut : Prop} (hd : dr) (h : g.Den inp out) :
    End g inp dr cutOut out := by
  intro X _ hX
  rw [hX hd]
  exact ⟨out, h, List.prefix_rfl, fun _ => rfl⟩

theorem wvals_set_done {ws : List (W α)} {w : Nat} {x : W α} (h : ws[w]? = some x) (hx : x = .get ∨ x = .done) :
    wvals (ws.set w .done) = wvals ws := by
  induction ws generalizing w with
  | nil => simp at h
  | cons y ws ih =>
    cases w with
    | zero => simp at h; subst h; rcases hx with rfl | rfl <;> simp [wvals]
    | succ w => simp at h; cases y <;> simp [wvals, ih h]

theorem wvals_set_put {ws : List (W α)} {w : Nat} {v : α} (h : ws[w]? = some .get) :
    (wvals (ws.set w (.put v))).Perm (v :: wvals ws) := by
  induction ws generalizing w with
  | nil => simp at h
  | cons y ws ih =>
    cases w with
    | zero => simp at h; subst h; simp [wvals]
    | succ w =>
      simp at h
      cases y with
      | put u => simp only [List.set_cons_succ, wvals]; exact ((ih h).cons u).trans (List.Perm.swap _ _ _)
      | get => simpa [wvals] using ih h
      | done => simpa [wvals] using ih h

theorem wvals_set_out {ws : List (W α)} {w : Nat} {v : α} {x : W α} (h : ws[w]? = some (.put v)) (hx : x = .get ∨ x = .done) :
    (v :: wvals (ws.set w x)).Perm (wvals ws) := by
  induction ws generalizing w with
  | nil => simp at h
  | cons y ws ih =>
    cases w with
    | zero => simp at h; subst h; rcases hx with rfl | rfl <;> simp [wvals]
    | succ w =>
      simp at h
      cases y with
      | put u => simp only [List.set_cons_succ, wvals]; exact (List.Perm.swap _ _ _).trans ((ih h).cons u)
      | get => simpa [wvals] using ih h
      | done => simpa [wvals] using ih h

theorem mem_set_done {ws : List (W α)} {w : Nat} {x y : W α} (h : y ∈ ws.set w x) : y = x ∨ y ∈ ws :=
  (List.mem_or_eq_of_mem_set h).symm

theorem local_pop_some {g : Stage α} {w : Nat} {pc : Pc α} {h : Option α → Pc α} {inp out : List α} {dr cutOut : Prop} {v : α}
    (hok : g.Ok) (hc : g.cmd w pc = .pop h) (hl : Local g pc inp dr cutOut out) (hd : ¬ dr) {dr' : Prop} :
    Local g (h (some v)) (inp ++ [v]) dr' cutOut out := by
  cases pc with
  | close => cases g <;> simp [Stage.cmd] at hc
  | cut => simp [Stage.cmd] at hc
  | done => simp [Stage.cmd] at hc
  | put k u => cases g <;> simp [Stage.cmd] at hc
  | fold a =>
    cases g <;> simp only [Local] at hl
    simp only [Stage.cmd, Cmd.pop.injEq] at hc; subst hc
    simp [Local, hl]
  | get k buf =>
    cases g <;> simp only [Local] at hl <;> simp only [Stage.cmd, Cmd.pop.injEq] at hc <;> subst hc <;> dsimp only
    · simp [Local, hl]
    · split <;> simp [Local, hl, *]
    · simp [Local, hl]
    · rename_i n
      by_cases hk : k < n
      · have hk' : inp.length = k := by omega
        simp only [if_pos hk, Local, hl.1]
        rw [List.drop_eq_nil_of_le (by omega), List.drop_eq_nil_of_le (by simp; omega)]
        refine ⟨rfl, ?_⟩
        simp; omega
      · have hk' : k = n ∧ n ≤ inp.length := by
          rcases hl.2 with h | ⟨h1, h2⟩
          · omega
          · exact ⟨h1, h2.resolve_right hd⟩
        simp only [if_neg hk, Local, hl.1]
        rw [List.drop_append_of_le_length (by omega)]
        refine ⟨rfl, hk'.1, by simp; omega⟩
    · rename_i n f
      obtain ⟨m, h1, h2, h3, h4⟩ := hl
      have hg : groups n f m (inp ++ [v]) = groups n f m inp := (groups_prefix (List.prefix_append _ _) (by omega)).symm
      have hdr : (inp ++ [v]).drop (m * n) = buf ++ [v] := by
        rw [List.drop_append_of_le_length (by omega), h3]
      split
      · rename_i hn
        refine ⟨m + 1, by simp [Nat.succ_mul]; omega, ?_⟩
        rw [groups_succ, hg, h4, hdr, List.take_of_length_le (by simp; omega)]
      · exact ⟨m, by simp; omega, by simp; omega, hdr.symm, by rw [hg, h4]⟩
  | join ws =>
    cases g <;> simp only [Local] at hl
    rename_i n f
    simp only [Stage.cmd] at hc
    obtain ⟨h1, ⟨lost, h2, h3⟩, h4⟩ := hl
    cases hw : ws[w]? with
    | none => rw [hw] at hc; dsimp only at hc; split at hc <;> simp at hc
    | some x =>
      rw [hw] at hc
      cases x with
      | put u => simp at hc
      | done => simp at hc
      | get =>
        simp only [Cmd.pop.injEq] at hc; subst hc
        refine ⟨by simp [h1], ⟨lost, ?_, h3⟩, ?_⟩
        · have hp := wvals_set_put (v := f v) hw
          rw [List.map_append]
          refine List.Perm.trans ?_ (h2.append_right _)
          simp only [List.map_cons, List.map_nil, List.append_assoc]
          refine List.Perm.append_left _ ?_
          refine (hp.append_right _).trans ?_
          simp only [List.cons_append]
          rw [← List.append_assoc]
          exact (List.perm_append_singleton _ _).symm
        · intro y hy he
          rcases mem_set_done hy with rfl | hy
          · simp at he
          · rcases h4 y hy he with h | h
            · exact absurd h hd
            · exact Or.inr h

theorem local_pop_none {g : Stage α} {w : Nat} {pc : Pc α} {h : Option α → Pc α} {inp out : List α} {dr cutOut : Prop}
    (hok : g.Ok) (hc : g.cmd w pc = .pop h) (hl : Local g pc inp dr cutOut out) (hd : dr) :
    Local g (h none) inp dr cutOut out := by
  cases pc with
  | close => cases g <;> simp [Stage.cmd] at hc
  | cut => simp [Stage.cmd] at hc
  | done => simp [Stage.cmd] at hc
  | put k u => cases g <;> simp [Stage.cmd] at hc
  | fold a =>
    cases g <;> simp only [Local] at hl
    simp only [Stage.cmd, Cmd.pop.injEq] at hc; subst hc
    simp [Local, hl, hd]
  | get k buf =>
    cases g <;> simp only [Local] at hl <;> simp only [Stage.cmd, Cmd.pop.injEq] at hc <;> subst hc <;> dsimp only
    · exact end_of_drained hd hl
    · exact end_of_drained hd hl
    · exact end_of_drained hd (by simp only [Stage.Den]; rw [List.take_of_length_le (by omega), hl.1])
    · split
      · simp only [Local, hl.1]; exact ⟨trivial, Or.inr ⟨trivial, Or.inr hd⟩⟩
      · exact end_of_drained hd hl.1
    · rename_i n f
      obtain ⟨m, h1, h2, h3, h4⟩ := hl
      refine end_of_drained hd ?_
      simp only [Stage.Den]
      have : inp.length / n = m := by
        rw [h1, Nat.mul_comm, Nat.mul_add_div hok, Nat.div_eq_of_lt h2]; rfl
      rw [this, h4]; rfl
  | join ws =>
    cases g <;> simp only [Local] at hl
    rename_i n f
    simp only [Stage.cmd] at hc
    obtain ⟨h1, ⟨lost, h2, h3⟩, h4⟩ := hl
    cases hw : ws[w]? with
    | none => rw [hw] at hc; dsimp only at hc; split at hc <;> simp at hc
    | some x =>
      rw [hw] at hc
      cases x with
      | put u => simp at hc
      | done => simp at hc
      | get =>
        simp only [Cmd.pop.injEq] at hc; subst hc
        refine ⟨by simp [h1], ⟨lost, ?_, h3⟩, ?_⟩
        · rw [wvals_set_done hw (.inl rfl)]; exact h2
        · intro y hy he
          exact Or.inl hd

theorem local_push_true {g : Stage α} {w : Nat} {pc : Pc α} {v : α} {h : Bool → Pc α} {inp out : List α} {dr cutOut : Prop}
    (hok : g.Ok) (hc : g.cmd w pc = .push v h) (hl : Local g pc inp dr cutOut out) :
    Local g (h true) inp dr cutOut (out ++ [v]) := by
  cases pc with
  | close => cases g <;> simp [Stage.cmd] at hc
  | cut => simp [Stage.cmd] at hc
  | done => simp [Stage.cmd] at hc
  | get k u => cases g <;> simp [Stage.cmd] at hc
  | fold a => cases g <;> simp [Stage.cmd] at hc
  | put k u =>
    cases g <;> simp only [Local] at hl <;> simp only [Stage.cmd, Cmd.push.injEq] at hc <;> obtain ⟨rfl, rfl⟩ := hc <;> dsimp only
    · simpa [Local] using hl
    · simpa [Local] using hl
    · rename_i n
      by_cases hk : k + 1 < n
      · simp [Local, hl, hk]
      · simp only [Bool.true_and, decide_eq_true_eq, if_neg hk]
        intro X hX _
        have hkn : n = k + 1 := by omega
        refine ⟨_, rfl, ?_⟩
        rw [hl.1]
        have : X.take n = inp := by
          obtain ⟨Z, rfl⟩ := hX
          rw [List.take_append_of_le_length (by omega), List.take_of_length_le (by omega)]
        rw [this]; exact ⟨List.prefix_rfl, fun _ => rfl⟩
    · simp only [Local, if_true, hl.1]; exact ⟨trivial, Or.inr ⟨hl.2.1, Or.inl hl.2.2⟩⟩
    · obtain ⟨h1, h2, h3⟩ := hl
      exact end_of_drained h3 (by simp [Stage.Den, h1, h2])
    · rename_i n f
      obtain ⟨m, h1, h2⟩ := hl
      have hn : n ≠ 0 := by intro e; simp [Stage.Ok] at hok; omega
      simp only [if_true, if_neg hn]
      refine ⟨m, by simp [h1], by simp; omega, ?_, h2⟩
      rw [List.drop_eq_nil_of_le (by omega)]
  | join ws =>
    cases g <;> simp only [Local] at hl
    rename_i n f
    simp only [Stage.cmd] at hc
    obtain ⟨h1, ⟨lost, h2, h3⟩, h4⟩ := hl
    cases hw : ws[w]? with
    | none => rw [hw] at hc; dsimp only at hc; split at hc <;> simp at hc
    | some x =>
      rw [hw] at hc
      cases x with
      | get => simp at hc
      | done => simp at hc
      | put u =>
        simp only [Cmd.push.injEq] at hc; obtain ⟨rfl, rfl⟩ := hc
        refine ⟨by simp [h1], ⟨lost, ?_, h3⟩, ?_⟩
        · refine List.Perm.trans ?_ h2
          have := wvals_set_out (x := .get) hw (.inl rfl)
          refine List.Perm.append_right _ ?_
          simp only [List.append_assoc, List.singleton_append, if_true]
          exact this.append_left _
        · intro y hy he
          rcases mem_set_done hy with rfl | hy
          · simp at he
          · exact h4 y hy he

theorem local_push_false {g : Stage α} {w : Nat} {pc : Pc α} {v : α} {h : Bool → Pc α} {inp out : List α} {dr cutOut : Prop}
    (hok : g.Ok) (hc : g.cmd w pc = .push v h) (hl : Local g pc inp dr cutOut out) (hcut : cutOut) :
    Local g (h false) inp dr cutOut out := by
  cases pc with
  | close => cases g <;> simp [Stage.cmd] at hc
  | cut => simp [Stage.cmd] at hc
  | done => simp [Stage.cmd] at hc
  | get k u => cases g <;> simp [Stage.cmd] at hc
  | fold a => cases g <;> simp [Stage.cmd] at hc
  | put k u =>
    have he : End g inp dr cutOut out := end_of_cut hcut (fun X hX hd => Local.part hok hl hX hd)
    cases g <;> simp only [Local] at hl <;> simp only [Stage.cmd, Cmd.push.injEq] at hc <;> obtain ⟨rfl, rfl⟩ := hc <;>
      exact he
  | join ws =>
    cases g <;> simp only [Local] at hl
    rename_i n f
    simp only [Stage.cmd] at hc
    obtain ⟨h1, ⟨lost, h2, h3⟩, h4⟩ := hl
    cases hw : ws[w]? with
    | none => rw [hw] at hc; dsimp only at hc; split at hc <;> simp at hc
    | some x =>
      rw [hw] at hc
      cases x with
      | get => simp at hc
      | done => simp at hc
      | put u =>
        simp only [Cmd.push.injEq] at hc; obtain ⟨rfl, rfl⟩ := hc
        refine ⟨by simp [h1], ⟨u :: lost, ?_, fun _ => hcut⟩, fun _ _ _ => Or.inr hcut⟩
        refine List.Perm.trans ?_ h2
        have := wvals_set_out (x := .done) hw (.inr rfl)
        simp only [List.append_assoc, Bool.false_eq_true, if_false]
        refine List.Perm.append_left _ ?_
        refine List.Perm.trans ?_ (this.append_right _)
        exact List.perm_middle

theorem local_close {g : Stage α} {w : Nat} {pc h : Pc α} {inp out : List α} {dr cutOut : Prop}
    (hc : g.cmd w pc = .close h) (hl : Local g pc inp dr cutOut out) :
    End g inp dr cutOut out ∧ (h = .done ∨ h = .cut) ∧ pc = .close := by
  cases pc <;> cases g <;> simp [Stage.cmd] at hc <;> try (subst hc; exact ⟨hl, by simp, rfl⟩)
  rename_i ws n f
  cases hw : ws[w]? with
  | none => rw [hw] at hc; dsimp only at hc; split at hc <;> simp at hc
  | some x => rw [hw] at hc; cases x <;> simp at hc

theorem local_cut {g : Stage α} {w : Nat} {pc h : Pc α} {inp out : List α} {dr cutOut : Prop}
    (hc : g.cmd w pc = .cut h) (hl : Local g pc inp dr cutOut out) :
    End g inp dr cutOut out ∧ h = .done ∧ pc = .cut := by
  cases pc <;> cases g <;> simp [Stage.cmd] at hc <;> try (subst hc; exact ⟨hl, rfl, rfl⟩)
  rename_i ws n f
  cases hw : ws[w]? with
  | none => rw [hw] at hc; dsimp only at hc; split at hc <;> simp at hc
  | some x => rw [hw] at hc; cases x <;> simp at hc

theorem local_tau {g : Stage α} {w : Nat} {pc h : Pc α} {inp out : List α} {dr cutOut : Prop} (hok : g.Ok)
    (hc : g.cmd w pc = .tau h) (hl : Local g pc inp dr cutOut out) : h = .close ∧ End g inp dr cutOut out := by
  have hl' := hl
  cases pc <;> cases g <;> simp [Stage.cmd] at hc
  rename_i ws n f
  cases hw : ws[w]? with
  | some x => rw [hw] at hc; cases x <;> simp at hc
  | none =>
    rw [hw] at hc; dsimp only at hc
    split at hc
    · rename_i hall
      simp only [Cmd.tau.injEq] at hc
      refine ⟨hc.symm, ?_⟩
      simp only [Local] at hl
      obtain ⟨h1, ⟨lost, h2, h3⟩, h4⟩ := hl
      have hdone : ∀ x ∈ ws, x = .done := by
        intro x hx
        have := hall x hx
        cases x <;> simp_all
      have hv : wvals ws = [] := by
        clear hw h2 h4 hall h1 hl'
        induction ws with
        | nil => rfl
        | cons x ws ih =>
          have := hdone x (by simp); subst this
          simp [wvals, ih (fun x hx => hdone x (by simp [hx]))]
      have hd : dr ∨ cutOut := by
        cases ws with
        | nil => simp at h1; simp [Stage.Ok] at hok; omega
        | cons x ws => exact h4 x (by simp) (hdone x (by simp))
      by_cases hcut : cutOut
      · exact end_of_cut hcut (fun X hX hd => Local.part hok hl' hX hd)
      · refine end_of_drained (hd.resolve_right hcut) ?_
        have : lost = [] := by
          cases lost with
          | nil => rfl
          | cons a l => exact absurd (h3 (by simp)) hcut
        simpa [Stage.Den, hv, this] using h2
    · simp at hc

theorem End.mono {g : Stage α} {inp out : List α} {dr dr' cutOut cutOut' : Prop} (h : End g inp dr cutOut out)
    (hd : dr → dr') (hc : cutOut → cutOut') : End g inp dr' cutOut' out := by
  intro X hX hX'
  obtain ⟨Y, h1, h2, h3⟩ := h X hX (fun h => hX' (hd h))
  exact ⟨Y, h1, h2, fun hn => h3 (fun h => hn (hc h))⟩

theorem Local.mono {g : Stage α} {pc : Pc α} {inp out : List α} {dr dr' cutOut cutOut' : Prop}
    (h : Local g pc inp dr cutOut out) (hd : dr → dr') (hc : cutOut → cutOut') : Local g pc inp dr' cutOut' out := by
  cases pc with
  | close => exact End.mono h hd hc
  | cut => exact End.mono h hd hc
  | done => exact End.mono h hd hc
  | join ws =>
    cases g <;> simp only [Local] at h ⊢
    obtain ⟨h1, ⟨lost, h2, h3⟩, h4⟩ := h
    exact ⟨h1, ⟨lost, h2, fun e => hc (h3 e)⟩, fun w hw e => (h4 w hw e).imp hd hc⟩
  | get k buf =>
    cases g <;> simp only [Local] at h ⊢ <;> try exact h
    exact ⟨h.1, h.2.imp id (fun h => ⟨h.1, h.2.imp id hd⟩)⟩
  | put k v =>
    cases g <;> simp only [Local] at h ⊢ <;> try exact h
    exact ⟨h.1, h.2.1, hd h.2.2⟩
  | fold a => cases g <;> simp only [Local] at h ⊢ <;> exact h

/-! ## The whole pipeline -/

/-- `X` are the first items of the source. (Concerns co_chan.h:22-278, co_pipeline.h:140-291.) -/
def Pre (src : Nat → Option α) (X : List α) : Prop := ∀ j < X.length, src j = X[j]?

/-- What the source has pushed to its channel (`out`, whose state is `st`). (Concerns co_chan.h:22-278, co_pipeline.h:140-291.) -/
def SrcInv (src : Nat → Option α) (spc : Spc α) (k : Nat) (st : Cst) (out : List α) : Prop :=
  match spc with
  | .gen => out.length = k ∧ Pre src out
  | .wait => out.length = k ∧ Pre src out
  | .put v => out.length + 1 = k ∧ Pre src (out ++ [v])
  | .close => out.length ≤ k ∧ Pre src out ∧ (st = .cut ∨ (out.length = k ∧ src k = none))
  | .done => out.length ≤ k ∧ Pre src out ∧ (st = .cut ∨ (out.length = k ∧ src k = none))

/-- Facts about every reachable state. (Concerns co_chan.h:22-278, co_pipeline.h:140-291.) -/
structure Inv (P : Pipe α) (s : State α) : Prop where
  src : SrcInv P.src s.spc s.k (s.ch 0).st (s.ch 0).all
  srcFin : (s.ch 0).st = .fin → s.spc = .done
  srcDone : s.spc = .done → (s.ch 0).st ≠ .opened
  loc : ∀ i g, P.stages[i]? = some g →
    Local g (s.pc i) (s.ch i).got ((s.ch i).st = .fin ∧ (s.ch i).data = []) ((s.ch (i + 1)).st = .cut) (s.ch (i + 1)).all
  fin : ∀ i, (s.ch (i + 1)).st = .fin → s.pc i = .done ∨ s.pc i = .cut
  past : ∀ i, i < P.stages.length → s.pc i = .done ∨ s.pc i = .cut → (s.ch (i + 1)).st ≠ .opened
  cut : ∀ i, (s.ch i).st = .cut → i < P.stages.length ∧ s.pc i = .done
  eof : s.eof = true → (s.ch P.stages.length).st = .fin ∧ (s.ch P.stages.length).data = []

theorem inv_init (P : Pipe α) : Inv P P.init := by
  refine ⟨by simp [SrcInv, Pipe.init, Chan.all, Pre], by simp [Pipe.init], by simp [Pipe.init], ?_, by simp [Pipe.init],
    ?_, by simp [Pipe.init], by simp [Pipe.init]⟩
  · intro i g hg
    simp only [Pipe.init, hg, Chan.all]
    cases g with
    | take n =>
      simp only [Stage.start]
      split
      · rename_i h; subst h
        intro X _ _; exact ⟨[], by simp [Stage.Den], by simp, by simp⟩
      · simp [Local]; omega
    | group n f =>
      simp only [Stage.start]
      split
      · rename_i h; subst h; exact ⟨1, by simp, by simp [groups]⟩
      · exact ⟨0, by simp, by simp; omega, by simp, by simp [groups]⟩
    | fork n f =>
      simp only [Stage.start, Local]
      refine ⟨by simp, ⟨[], ?_, by simp⟩, ?_⟩
      · have : ∀ n, wvals (List.replicate n (W.get : W α)) = [] := by
          intro n; induction n with
          | zero => rfl
          | succ n ih => simp [List.replicate_succ, wvals, ih]
        simp [this]
      · intro w hw e
        have := (List.mem_replicate.1 hw).2
        simp [this] at e
    | skip n => simp [Stage.start, Local]; omega
    | _ => simp [Stage.start, Local]
  · intro i hi h
    simp only [Pipe.init] at h
    have hg : P.stages[i]? = some P.stages[i] := List.getElem?_eq_getElem hi
    rw [hg] at h
    cases hs : P.stages[i] <;> simp [hs, Stage.start] at h <;> split at h <;> simp at h

theorem pop_spec {c c' : Chan α} {o : Option α} (h : c.pop = some (o, c')) :
    c'.st = c.st ∧ c'.all = c.all ∧
    ((∃ v, o = some v ∧ c'.got = c.got ++ [v] ∧ c.data = v :: c'.data) ∨ (o = none ∧ c' = c ∧ c.data = [] ∧ c.st ≠ .opened)) := by
  unfold Chan.pop at h
  split at h
  · simp only [Option.some.injEq, Prod.mk.injEq] at h
    obtain ⟨rfl, rfl⟩ := h
    simp [Chan.all, *]
  · split at h
    · simp at h
    · simp only [Option.some.injEq, Prod.mk.injEq] at h
      obtain ⟨rfl, rfl⟩ := h
      simp [*]

theorem pre_snoc {src : Nat → Option α} {X : List α} {v : α} (h : Pre src X) (hv : src X.length = some v) : Pre src (X ++ [v]) := by
  intro j hj
  simp at hj
  by_cases e : j = X.length
  · subst e; simp [hv]
  · rw [h j (by omega), List.getElem?_append_left (by omega)]

theorem pre_left {src : Nat → Option α} {X Y : List α} (h : Pre src (X ++ Y)) : Pre src X := by
  intro j hj
  rw [h j (by simp; omega), List.getElem?_append_left hj]

theorem inv_src {P : Pipe α} {s s' : State α} {es : List (Ev α)} (h : Inv P s) (hs : P.step s .src = some (s', es)) : Inv P s' := by
  obtain ⟨h1, h2, h3, h4, h5, h6, h7, h8⟩ := h
  simp only [Pipe.step] at hs
  cases hp : s.spc with
  | done => simp [hp] at hs
  | gen =>
    rw [hp] at hs h1
    cases hv : P.src s.k with
    | none =>
      simp only [hv, Option.some.injEq, Prod.mk.injEq] at hs
      obtain ⟨rfl, rfl⟩ := hs
      have h2' : (s.ch 0).st ≠ .fin := fun h => by simp [h2 h] at hp
      exact ⟨⟨by have := h1.1; dsimp only; omega, h1.2, .inr ⟨h1.1, hv⟩⟩, fun h => absurd h h2', by simp, h4, h5, h6, h7, h8⟩
    | some v =>
      simp only [hv, Option.some.injEq, Prod.mk.injEq] at hs
      obtain ⟨rfl, rfl⟩ := hs
      have h2' : (s.ch 0).st ≠ .fin := fun h => by simp [h2 h] at hp
      exact ⟨⟨by rw [h1.1], pre_snoc h1.2 (by rw [h1.1, hv])⟩, fun h => absurd h h2', by simp, h4, h5, h6, h7, h8⟩
  | wait =>
    rw [hp] at hs h1
    dsimp only at hs
    split at hs
    · simp only [Option.some.injEq, Prod.mk.injEq] at hs
      obtain ⟨rfl, rfl⟩ := hs
      have h2' : (s.ch 0).st ≠ .fin := fun h => by simp [h2 h] at hp
      exact ⟨h1, fun h => absurd h h2', by simp, h4, h5, h6, h7, h8⟩
    · simp at hs
  | put v =>
    have h2' : (s.ch 0).st ≠ .fin := fun h => by simp [h2 h] at hp
    rw [hp] at hs h1
    dsimp only at hs
    split at hs
    · rename_i ho
      have hc : (s.ch 0).st = .cut := by cases hx : (s.ch 0).st <;> simp_all
      simp only [Option.some.injEq, Prod.mk.injEq] at hs
      obtain ⟨rfl, rfl⟩ := hs
      exact ⟨⟨by have := h1.1; dsimp only; omega, pre_left h1.2, .inl hc⟩, fun h => absurd h h2', by simp, h4, h5, h6, h7, h8⟩
    · rename_i ho
      have ho : (s.ch 0).st = .opened := by simpa using ho
      split at hs
      · simp only [Option.some.injEq, Prod.mk.injEq] at hs
        obtain ⟨rfl, rfl⟩ := hs
        have hall : ((s.ch 0).push v).all = (s.ch 0).all ++ [v] := by simp [Chan.push, Chan.all]
        refine ⟨?_, ?_, ?_, ?_, ?_, ?_, ?_, ?_⟩
        · have : (((s.ch 0).push v).all.length = s.k) ∧ Pre P.src ((s.ch 0).push v).all := by
            rw [hall]; exact ⟨by simpa using h1.1, h1.2⟩
          simp only [upd, if_true]
          split <;> exact this
        · simp [upd, Chan.push, ho]
        · simp only; split <;> simp
        · intro i g hg
          have := h4 i g hg
          simp only [upd, Nat.add_eq_zero_iff, Nat.one_ne_zero, and_false, if_false]
          split
          · rename_i e; subst e
            refine this.mono ?_ id
            rintro ⟨h, _⟩; simp [ho] at h
          · exact this
        · intro i; simpa [upd] using h5 i
        · intro i; simpa [upd] using h6 i
        · intro i hi
          apply h7 i
          simp only [upd] at hi; split at hi
          · simp [Chan.push, ho] at hi
          · exact hi
        · intro he
          have := h8 he
          simp only [upd]; split
          · rename_i e; rw [e, ho] at this; simp at this
          · exact this
      · simp at hs
  | close =>
    rw [hp] at hs h1
    simp only [Option.some.injEq, Prod.mk.injEq] at hs
    obtain ⟨rfl, rfl⟩ := hs
    have hst : ((s.ch 0).close .fin).st ≠ .opened := by simp [Chan.close]; split <;> simp_all
    have hcut : ((s.ch 0).close .fin).st = .cut ↔ (s.ch 0).st = .cut := by simp [Chan.close]; split <;> simp_all
    have hfin : (s.ch 0).st = .fin → ((s.ch 0).close .fin).st = .fin := by intro h; simp [Chan.close, h]
    refine ⟨?_, by simp, by simpa [upd] using hst, ?_, ?_, ?_, ?_, ?_⟩
    · simp only [upd, if_true]
      exact ⟨h1.1, h1.2.1, h1.2.2.imp hcut.2 id⟩
    · intro i g hg
      have := h4 i g hg
      simp only [upd, Nat.add_eq_zero_iff, Nat.one_ne_zero, and_false, if_false]
      split
      · rename_i e; subst e
        exact this.mono (fun h => ⟨hfin h.1, h.2⟩) id
      · exact this
    · intro i; simpa [upd] using h5 i
    · intro i; simpa [upd] using h6 i
    · intro i hi
      apply h7 i
      simp only [upd] at hi; split at hi
      · rename_i e; rw [e]; exact hcut.1 hi
      · exact hi
    · intro he
      have := h8 he
      simp only [upd]; split
      · rename_i e; rw [e] at this; exact ⟨hfin this.1, this.2⟩
      · exact this

theorem inv_pop {P : Pipe α} {s s' : State α} {es : List (Ev α)} (h : Inv P s) (hs : P.step s .pop = some (s', es)) : Inv P s' := by
  obtain ⟨h1, h2, h3, h4, h5, h6, h7, h8⟩ := h
  simp only [Pipe.step] at hs
  split at hs
  · simp at hs
  · rename_i he
    cases hp : (s.ch P.stages.length).pop with
    | none => simp [hp] at hs
    | some r =>
      obtain ⟨o, c⟩ := r
      obtain ⟨p1, p2, p3⟩ := pop_spec hp
      have key : ∀ e, (e = true → c.st = .fin ∧ c.data = []) → Inv P { s with ch := upd s.ch P.stages.length c, eof := e } := by
        intro e hee
        refine ⟨?_, ?_, ?_, ?_, ?_, ?_, ?_, ?_⟩
        · simp only [upd]; split
          · rename_i e; rw [p1, p2, ← e]; exact h1
          · exact h1
        · simp only [upd]; split
          · rename_i e; rw [p1, ← e]; exact h2
          · exact h2
        · simp only [upd]; split
          · rename_i e; rw [p1, ← e]; exact h3
          · exact h3
        · intro i g hg
          have hi : i < P.stages.length := by
            rw [List.getElem?_eq_some_iff] at hg; exact hg.1
          have := h4 i g hg
          simp only [upd, if_neg (show i ≠ P.stages.length by omega)]
          split
          · rename_i e; rw [p1, p2, ← e]; exact this
          · exact this
        · intro i
          simp only [upd]; split
          · rename_i e; rw [p1, ← e]; exact h5 i
          · exact h5 i
        · intro i hi
          simp only [upd]; split
          · rename_i e; rw [p1, ← e]; exact h6 i hi
          · exact h6 i hi
        · intro i
          simp only [upd]; split
          · rename_i e; rw [p1, e]; exact h7 _
          · exact h7 i
        · intro h
          simp only [upd, if_true]
          exact hee h
      rw [hp] at hs
      rcases p3 with ⟨v, rfl, _, _⟩ | ⟨rfl, rfl, q1, q2⟩
      · simp only [Option.some.injEq, Prod.mk.injEq] at hs
        obtain ⟨rfl, rfl⟩ := hs
        exact key s.eof (fun h => absurd h he)
      · simp only [Option.some.injEq, Prod.mk.injEq] at hs
        obtain ⟨rfl, rfl⟩ := hs
        refine key true (fun _ => ⟨?_, q1⟩)
        cases hx : (s.ch P.stages.length).st with
        | opened => exact absurd hx q2
        | fin => rfl
        | cut => exact absurd (h7 _ hx).1 (by omega)

/-- A step of stage `i` that only changes its own channels, in the ways allowed. -/
theorem inv_change {P : Pipe α} {s : State α} (h : Inv P s) {i : Nat} {g : Stage α} (hg : P.stages[i]? = some g) {q : Pc α}
    {ci co : Chan α}
    (a1 : ci.all = (s.ch i).all) (a2 : (s.ch i).st = .fin ↔ ci.st = .fin) (a3 : (s.ch i).st ≠ .opened → ci.st ≠ .opened)
    (a4 : (s.ch i).st = .cut → ci.st = .cut)
    (a5 : ci.st = .cut → (s.ch i).st = .cut ∨ q = .done)
    (b1 : co.got = (s.ch (i + 1)).got) (b2 : (s.ch (i + 1)).st = .fin ∧ (s.ch (i + 1)).data = [] → co.st = .fin ∧ co.data = [])
    (b3 : co.st = .cut ↔ (s.ch (i + 1)).st = .cut)
    (b4 : co.st = .fin → q = .done ∨ q = .cut)
    (b5 : q = .done ∨ q = .cut → co.st ≠ .opened)
    (c1 : (s.ch i).st = .cut → q = .done)
    (c2 : Local g q ci.got (ci.st = .fin ∧ ci.data = []) (co.st = .cut) co.all) :
    Inv P { s with pc := upd s.pc i q, ch := upd (upd s.ch i ci) (i + 1) co } := by
  obtain ⟨h1, h2, h3, h4, h5, h6, h7, h8⟩ := h
  have hi : i < P.stages.length := by rw [List.getElem?_eq_some_iff] at hg; exact hg.1
  have e0 : ∀ j, upd (upd s.ch i ci) (i + 1) co j = if j = i + 1 then co else if j = i then ci else s.ch j := by
    intro j; simp [upd]
  refine ⟨?_, ?_, ?_, ?_, ?_, ?_, ?_, ?_⟩
  · simp only [e0]
    rw [if_neg (show 0 ≠ i + 1 by omega)]
    split
    · rename_i e; subst e
      rw [a1]
      revert h1
      cases s.spc <;> simp only [SrcInv] <;> first | exact id | (intro h; exact ⟨h.1, h.2.1, h.2.2.imp a4 id⟩)
    · exact h1
  · simp only [e0]; rw [if_neg (show 0 ≠ i + 1 by omega)]; split
    · rename_i e; subst e; rw [← a2]; exact h2
    · exact h2
  · simp only [e0]; rw [if_neg (show 0 ≠ i + 1 by omega)]; split
    · rename_i e; subst e; exact fun h => a3 (h3 h)
    · exact h3
  · intro j g' hg'
    simp only [e0]
    by_cases hj : j = i
    · subst hj
      rw [hg] at hg'; cases hg'
      simpa [upd] using c2
    · have hl := h4 j g' hg'
      have hpc : upd s.pc i q j = s.pc j := by simp [upd, hj]
      rw [hpc]
      by_cases hj1 : j = i + 1
      · subst hj1
        simp only [if_true, if_neg (show i + 1 + 1 ≠ i + 1 by omega), if_neg (show i + 1 + 1 ≠ i by omega)]
        rw [b1]; exact hl.mono b2 id
      · simp only [if_neg hj1, if_neg hj, if_neg (show j + 1 ≠ i + 1 by omega)]
        split
        · rename_i e; rw [a1]
          rw [e] at hl
          exact hl.mono id a4
        · exact hl
  · intro j
    simp only [e0, upd]
    by_cases hj : j = i
    · subst hj; simpa using b4
    · rw [if_neg (show j + 1 ≠ i + 1 by omega), if_neg hj]
      split
      · rename_i e; rw [← a2, ← e]; exact h5 j
      · exact h5 j
  · intro j hj'
    simp only [e0, upd]
    by_cases hj : j = i
    · subst hj; simpa using b5
    · rw [if_neg (show j + 1 ≠ i + 1 by omega), if_neg hj]
      split
      · rename_i e; intro h; exact a3 (by rw [← e]; exact h6 j hj' h)
      · exact h6 j hj'
  · intro j
    simp only [e0, upd]
    by_cases hj : j = i
    · subst hj
      simp only [if_neg (show j ≠ j + 1 by omega), if_true]
      intro h
      exact ⟨hi, (a5 h).elim c1 id⟩
    · rw [if_neg hj]
      by_cases hj1 : j = i + 1
      · subst hj1; simp only [if_true, if_neg hj]; rw [b3]; exact h7 _
      · simp only [if_neg hj1, if_neg hj]; exact h7 j
  · intro he
    simp only [e0]
    have := h8 he
    split
    · rename_i e; rw [e] at this; exact b2 this
    · rw [if_neg (show P.stages.length ≠ i by omega)]; exact this

theorem inv_run {P : Pipe α} (hok : ∀ g ∈ P.stages, g.Ok) {s s' : State α} {i w : Nat} {es : List (Ev α)} (h : Inv P s)
    (hs : P.step s (.run i w) = some (s', es)) : Inv P s' := by
  simp only [Pipe.step] at hs
  cases hg : P.stages[i]? with
  | none => simp [hg] at hs
  | some g =>
    rw [hg] at hs
    dsimp only at hs
    have hgok : g.Ok := hok g (List.mem_of_getElem? hg)
    have hl := h.loc i g hg
    have hcutd : (s.ch i).st = .cut → s.pc i = .done := fun e => (h.cut i e).2
    have hpast := h.past i (by rw [List.getElem?_eq_some_iff] at hg; exact hg.1)
    have hfin := h.fin i
    have hupd0 : upd (upd s.ch i (s.ch i)) (i + 1) (s.ch (i + 1)) = s.ch := by
      funext j; simp only [upd]; split
      · rename_i e; rw [e]
      · split
        · rename_i e; rw [e]
        · rfl
    have hupdi : ∀ c, upd (upd s.ch i c) (i + 1) (s.ch (i + 1)) = upd s.ch i c := by
      intro c; funext j; simp only [upd]; split
      · rename_i e; rw [e, if_neg (show i + 1 ≠ i by omega)]
      · rfl
    have hupdo : ∀ c, upd (upd s.ch i (s.ch i)) (i + 1) c = upd s.ch (i + 1) c := by
      intro c; funext j; simp only [upd]; split
      · rfl
      · split
        · rename_i e; rw [e]
        · rfl
    have hnd : ∀ x, g.cmd w (s.pc i) = x → x ≠ .stop → s.pc i ≠ .done := by
      rintro x h1 h2 h3; rw [h3] at h1; simp [Stage.cmd] at h1; exact h2 h1.symm
    cases hc : g.cmd w (s.pc i) with
    | stop => simp [hc] at hs
    | pop k =>
      rw [hc] at hs
      have hnc : (s.ch i).st ≠ .cut := fun e => hnd _ hc (by simp) (hcutd e)
      have hpc : s.pc i ≠ .done ∧ s.pc i ≠ .cut := ⟨hnd _ hc (by simp), by rintro e; rw [e] at hc; simp [Stage.cmd] at hc⟩
      have hnf : (s.ch (i + 1)).st ≠ .fin := fun e => by rcases hfin e with h | h <;> simp [h] at hpc
      cases hp : (s.ch i).pop with
      | none => simp [hp] at hs
      | some r =>
        obtain ⟨o, c⟩ := r
        simp only [hp, Option.some.injEq, Prod.mk.injEq] at hs
        obtain ⟨rfl, rfl⟩ := hs
        obtain ⟨p1, p2, p3⟩ := pop_spec hp
        have hq : k o ≠ .done ∧ k o ≠ .cut := by
          cases hpp : s.pc i <;> rw [hpp] at hc <;> cases g <;> simp [Stage.cmd] at hc
          all_goals first
            | (subst hc; cases o <;> simp; done)
            | (subst hc; cases o <;> simp <;> split <;> simp; done)
            | skip
          rename_i ws n f
          cases hw : ws[w]? with
          | none => rw [hw] at hc; dsimp only at hc; split at hc <;> simp at hc
          | some x =>
            rw [hw] at hc
            cases x <;> simp at hc
            subst hc; cases o <;> simp
        rw [← hupdi]
        refine inv_change h hg p2 (by rw [p1]) (by rw [p1]; exact id) (by rw [p1]; exact id) (by rw [p1]; exact .inl) rfl id Iff.rfl
          (fun e => absurd e hnf) (fun e => by rcases e with e | e <;> simp [e] at hq) (fun e => absurd e hnc) ?_
        rcases p3 with ⟨v, rfl, q1, q2⟩ | ⟨rfl, rfl, q1, q2⟩
        · rw [q1]; exact local_pop_some hgok hc hl (by simp [q2])
        · refine local_pop_none hgok hc hl ⟨?_, q1⟩
          cases hx : (s.ch i).st <;> simp_all
    | push v k =>
      rw [hc] at hs
      have hnc : (s.ch i).st ≠ .cut := fun e => hnd _ hc (by simp) (hcutd e)
      have hpc : s.pc i ≠ .done ∧ s.pc i ≠ .cut := ⟨hnd _ hc (by simp), by rintro e; rw [e] at hc; simp [Stage.cmd] at hc⟩
      have hnf : (s.ch (i + 1)).st ≠ .fin := fun e => by rcases hfin e with h | h <;> simp [h] at hpc
      have hq : k true ≠ .done ∧ k true ≠ .cut := by
        cases hpp : s.pc i <;> rw [hpp] at hc <;> cases g <;> simp [Stage.cmd] at hc
        all_goals first
          | (rw [← hc.2]; simp; done)
          | (rw [← hc.2]; dsimp only; split <;> simp; done)
          | (rw [← hc.2]; simp only [if_true]; split <;> simp; done)
          | skip
        rename_i ws n f
        cases hw : ws[w]? with
        | none => rw [hw] at hc; dsimp only at hc; split at hc <;> simp at hc
        | some x =>
          rw [hw] at hc
          cases x <;> simp at hc
          rw [← hc.2]; simp
      dsimp only at hs
      split at hs
      · rename_i ho
        have hcut : (s.ch (i + 1)).st = .cut := by cases hx : (s.ch (i + 1)).st <;> simp_all
        simp only [Option.some.injEq, Prod.mk.injEq] at hs
        obtain ⟨rfl, rfl⟩ := hs
        have := inv_change h hg (q := k false) (ci := s.ch i) (co := s.ch (i + 1)) rfl Iff.rfl id id .inl rfl id Iff.rfl
          (fun e => absurd e hnf) (fun _ => ho) (fun e => absurd e hnc) (local_push_false hgok hc hl hcut)
        rw [hupd0] at this
        exact this
      · rename_i ho
        have ho : (s.ch (i + 1)).st = .opened := by simpa using ho
        simp only [Option.some.injEq, Prod.mk.injEq] at hs
        obtain ⟨rfl, rfl⟩ := hs
        rw [← hupdo]
        refine inv_change h hg rfl Iff.rfl id id .inl rfl (by simp [ho]) (by simp [Chan.push]) (by simp [Chan.push, ho])
          (fun e => by rcases e with e | e <;> simp [e] at hq) (fun e => absurd e hnc) ?_
        have := local_push_true hgok hc hl
        have e : ((s.ch (i + 1)).push v).all = (s.ch (i + 1)).all ++ [v] := by simp [Chan.push, Chan.all]
        rw [e]
        exact this
    | close q =>
      rw [hc] at hs
      obtain ⟨k1, k2, k3⟩ := local_close hc hl
      have hnc : (s.ch i).st ≠ .cut := fun e => hnd _ hc (by simp) (hcutd e)
      simp only [Option.some.injEq, Prod.mk.injEq] at hs
      obtain ⟨rfl, rfl⟩ := hs
      rw [← hupdo]
      have hst : ((s.ch (i + 1)).close .fin).st ≠ .opened := by simp [Chan.close]; split <;> simp_all
      have hcut : ((s.ch (i + 1)).close .fin).st = .cut ↔ (s.ch (i + 1)).st = .cut := by simp [Chan.close]; split <;> simp_all
      refine inv_change h hg rfl Iff.rfl id id .inl rfl ?_ hcut (fun _ => k2) (fun _ => hst) (fun e => absurd e hnc) ?_
      · rintro ⟨h1, h2⟩; simp [Chan.close, h1, h2]
      · have he : ((s.ch (i + 1)).close .fin).all = (s.ch (i + 1)).all := rfl
        rw [he]
        have := k1.mono id hcut.2
        rcases k2 with rfl | rfl <;> exact this
    | cut q =>
      rw [hc] at hs
      obtain ⟨k1, rfl, k3⟩ := local_cut hc hl
      have hnc : (s.ch i).st ≠ .cut := fun e => hnd _ hc (by simp) (hcutd e)
      simp only [Option.some.injEq, Prod.mk.injEq] at hs
      obtain ⟨rfl, rfl⟩ := hs
      rw [← hupdi]
      have hst : ((s.ch i).close .cut).st ≠ .opened := by simp [Chan.close]; split <;> simp_all
      have hf : (s.ch i).st = .fin ↔ ((s.ch i).close .cut).st = .fin := by simp [Chan.close]; split <;> simp_all
      refine inv_change h hg rfl hf (fun _ => hst) (fun e => absurd e hnc) (fun _ => .inr rfl) rfl id Iff.rfl
        (fun _ => .inl rfl) (fun _ => hpast (.inr k3)) (fun e => absurd e hnc) ?_
      exact k1.mono (fun h => ⟨hf.1 h.1, h.2⟩) id
    | tau q =>
      rw [hc] at hs
      obtain ⟨rfl, k1⟩ := local_tau hgok hc hl
      have hnc : (s.ch i).st ≠ .cut := fun e => hnd _ hc (by simp) (hcutd e)
      have hpc : s.pc i ≠ .done ∧ s.pc i ≠ .cut := ⟨hnd _ hc (by simp), by rintro e; rw [e] at hc; simp [Stage.cmd] at hc⟩
      have hnf : (s.ch (i + 1)).st ≠ .fin := fun e => by rcases hfin e with h | h <;> simp [h] at hpc
      simp only [Option.some.injEq, Prod.mk.injEq] at hs
      obtain ⟨rfl, rfl⟩ := hs
      have := inv_change h hg (q := .close) (ci := s.ch i) (co := s.ch (i + 1)) rfl Iff.rfl id id .inl rfl id Iff.rfl
        (fun e => absurd e hnf) (by simp) (fun e => absurd e hnc) k1
      rw [hupd0] at this
      exact this

theorem inv_step {P : Pipe α} (hok : ∀ g ∈ P.stages, g.Ok) {s s' : State α} {a : Act} {es : List (Ev α)} (h : Inv P s)
    (hs : P.step s a = some (s', es)) : Inv P s' := by
  cases a with
  | src => exact inv_src h hs
  | run i w => exact inv_run hok h hs
  | pop => exact inv_pop h hs

theorem inv_runs {P : Pipe α} (hok : ∀ g ∈ P.stages, g.Ok) {as : List Act} {s : State α} {tr : List (Ev α)}
    (h : runs P.step P.init as = some (s, tr)) : Inv P s :=
  runs_inv (Inv P) (fun _ _ _ _ h hs => inv_step hok h hs) as _ _ _ (inv_init P) h

end Verif.Pipe
