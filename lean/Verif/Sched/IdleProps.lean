import Verif.Sched.Idle

/-! # C86: a sleeping scheduling thread is woken -/

namespace Verif.Sched.Idle

open Verif.Sched (Ctx Ph Act View view)

/-- Proof device: the hint for a coroutine whose priority is being changed. (Concerns co_env.cpp:241-663.) -/
def Hint (s : Sched.State) : Prop := ∀ c g, s.mem c = true → (s.ctx c).canSchedule = true → s.chg c = some g → g.erased = false →
  s.min ≤ g.old ∨ (c, Ph.test) ∈ s.pend ∨ (c, Ph.read) ∈ s.pend ∨ ∃ p, p ≤ g.old ∧ (c, Ph.upd p) ∈ s.pend

/-- Proof device: whatever can run is being announced. (Concerns co_env.cpp:241-663.) -/
def Told (s : Sched.State) : Prop := ∀ c, s.mem c = true → (s.ctx c).canSchedule = true → ∃ ph, (c, ph) ∈ s.pend

theorem told_of_search {s : Sched.State} (h : Inv s) (hh : Hint s) (hmu : s.mu = none) (hs : s.search = none) : Told s := by
  intro c hc hsch
  have her : s.erased c = false := by
    cases hx : s.erased c with
    | false => rfl
    | true => have := (h.eras c hx).2; rw [hmu] at this; simp at this
  have hlist : c ∈ s.lists (s.lp c) := h.mem_list.2 ⟨hc, her, rfl⟩
  have hlt := (h.lt c hc).2
  have hmin : ¬ s.min ≤ s.lp c := by
    intro hle
    have := search_none hs _ hle hlt c hlist
    rw [hsch] at this; simp at this
  cases hg : s.chg c with
  | none =>
    have hlp : s.lp c = (s.ctx c).prio := lp_none hg
    rcases h.hint c hc hsch hg with h1 | h1 | h1 | ⟨p, _, h1⟩
    · omega
    · exact ⟨_, h1⟩
    · exact ⟨_, h1⟩
    · exact ⟨_, h1⟩
  | some g =>
    have hlp : s.lp c = g.old := by simp [State.lp, hg]
    have hge : g.erased = false := by simpa [State.erased, hg] using her
    rcases hh c g hc hsch hg hge with h1 | h1 | h1 | ⟨p, _, h1⟩
    · omega
    · exact ⟨_, h1⟩
    · exact ⟨_, h1⟩
    · exact ⟨_, h1⟩

theorem hint_pick {s : Sched.State} (h : Inv s) (hh : Hint s) : Hint s.pick.1 := by
  obtain ⟨f1, f2, f3, f4, f5, f6, f7⟩ := pick_fields s
  have fc := fun c => pick_ctx (s := s) c
  intro c g hc hsch hg hge
  rw [f1] at hc; rw [f4] at hg; rw [(fc c).2.2.2.2.2.2.2] at hsch
  rw [f6]
  rcases hh c g hc hsch hg hge with h1 | h1
  · left
    cases hs : s.search with
    | none => simp only [State.pick, hs]; exact h1
    | some r =>
      obtain ⟨i, d⟩ := r
      simp only [State.pick, hs]
      have hlp : s.lp c = g.old := by simp [State.lp, hg]
      have hlt := (h.lt c hc).2
      by_cases hle : i ≤ g.old
      · exact hle
      · exfalso
        have hm : c ∈ s.lists g.old := h.mem_list.2 ⟨hc, by simp [State.erased, hg, hge], hlp.symm⟩
        have := (search_some hs).2.2.2.2.2 _ h1 (by omega) c hm
        rw [hsch] at this
        simp at this
  · exact .inr h1

theorem mem_erase_ne {l : List (Nat × Ph)} {c d : Nat} {ph q : Ph} (h : (c, ph) ∈ l) (hn : c ≠ d ∨ ph ≠ q) : (c, ph) ∈ l.erase (d, q) := by
  rw [List.mem_erase_of_ne]
  · exact h
  · intro he
    simp only [Prod.mk.injEq] at he
    rcases hn with hn | hn
    · exact hn he.1
    · exact hn he.2

theorem leave_can (v : Ctx) (r : Nat) (h : v.canSchedule = true) : (v.leave r).canSchedule = true := by
  simp only [Ctx.canSchedule, Ctx.leave, Bool.and_eq_true, Bool.not_eq_true'] at h ⊢
  refine ⟨h.1, ?_⟩
  split
  · rfl
  · exact h.2

theorem hint_step {s s' : Sched.State} {a : Act} {es : List Sched.Ev} (h : Inv s) (hh : Hint s)
    (ha : ∀ c, a = .wake c .read → s.chg c = none) (hs : Sched.step false s a = some (s', es)) : Hint s' := by
  cases a with
  | pick =>
    simp only [Sched.step] at hs
    split at hs
    · simp only [Option.some.injEq, Prod.mk.injEq] at hs
      obtain ⟨rfl, rfl⟩ := hs
      exact hint_pick h hh
    · simp at hs
  | wake d ph =>
    intro c g hc hsch hg hge
    have hdead : s.mem c = true → s.dead c = false := by
      intro h1
      cases hd : s.dead c with
      | false => rfl
      | true => have := h.dead c hd; rw [h1] at this; simp at this
    have key : s.mem c = true → (s.ctx c).canSchedule = true → s.chg c = some g → _ := fun h1 h2 h3 => hh c g h1 h2 h3 hge
    cases ph with
    | test =>
      simp only [Sched.step] at hs
      repeat' split at hs
      all_goals simp only [Option.some.injEq, Prod.mk.injEq, reduceCtorEq] at hs
      all_goals obtain ⟨rfl, rfl⟩ := hs
      all_goals try simp only at hc hsch hg ⊢
      · rename_i h1 h2
        have hne : c ≠ d := by rintro rfl; rw [hdead hc] at h2; simp at h2
        rcases key hc hsch hg with k | k | k | ⟨p, k1, k⟩
        · exact .inl k
        · exact .inr (.inl (mem_erase_ne k (.inl hne)))
        · exact .inr (.inr (.inl (mem_erase_ne k (.inl hne))))
        · exact .inr (.inr (.inr ⟨p, k1, mem_erase_ne k (.inl hne)⟩))
      · rename_i h1 h2 h3
        have hne : c ≠ d := by rintro rfl; simp [Ctx.canSchedule, h3] at hsch
        rcases key hc hsch hg with k | k | k | ⟨p, k1, k⟩
        · exact .inl k
        · exact .inr (.inl (mem_erase_ne k (.inl hne)))
        · exact .inr (.inr (.inl (mem_erase_ne k (.inl hne))))
        · exact .inr (.inr (.inr ⟨p, k1, mem_erase_ne k (.inl hne)⟩))
      · by_cases hne : c = d
        · subst hne; exact .inr (.inr (.inl (by simp)))
        · rcases key hc hsch hg with k | k | k | ⟨p, k1, k⟩
          · exact .inl k
          · exact .inr (.inl (List.mem_cons_of_mem _ (mem_erase_ne k (.inl hne))))
          · exact .inr (.inr (.inl (List.mem_cons_of_mem _ (mem_erase_ne k (.inl hne)))))
          · exact .inr (.inr (.inr ⟨p, k1, List.mem_cons_of_mem _ (mem_erase_ne k (.inl hne))⟩))
    | read =>
      simp only [Sched.step] at hs
      have hnone := ha d rfl
      have hne : c ≠ d := by
        rintro rfl
        repeat' split at hs
        all_goals simp only [Option.some.injEq, Prod.mk.injEq, reduceCtorEq] at hs
        all_goals obtain ⟨rfl, rfl⟩ := hs
        all_goals try simp only at hg
        all_goals rw [hnone] at hg; simp at hg
      repeat' split at hs
      all_goals simp only [Option.some.injEq, Prod.mk.injEq, reduceCtorEq] at hs
      all_goals obtain ⟨rfl, rfl⟩ := hs
      all_goals try simp only at hc hsch hg ⊢
      · rcases key hc hsch hg with k | k | k | ⟨p, k1, k⟩
        · exact .inl k
        · exact .inr (.inl (mem_erase_ne k (.inl hne)))
        · exact .inr (.inr (.inl (mem_erase_ne k (.inl hne))))
        · exact .inr (.inr (.inr ⟨p, k1, mem_erase_ne k (.inl hne)⟩))
      · rcases key hc hsch hg with k | k | k | ⟨p, k1, k⟩
        · exact .inl k
        · exact .inr (.inl (List.mem_cons_of_mem _ (mem_erase_ne k (.inl hne))))
        · exact .inr (.inr (.inl (List.mem_cons_of_mem _ (mem_erase_ne k (.inl hne)))))
        · exact .inr (.inr (.inr ⟨p, k1, List.mem_cons_of_mem _ (mem_erase_ne k (.inl hne))⟩))
    | upd q =>
      simp only [Sched.step] at hs
      split at hs
      case isFalse => simp at hs
      simp only [Option.some.injEq, Prod.mk.injEq] at hs
      obtain ⟨rfl, rfl⟩ := hs
      simp only [State.updMin] at hc hsch hg ⊢
      rcases key hc hsch hg with k | k | k | ⟨p, k1, k⟩
      · left; split <;> omega
      · exact .inr (.inl (mem_erase_ne k (.inr (by simp))))
      · exact .inr (.inr (.inl (mem_erase_ne k (.inr (by simp)))))
      · by_cases he : c = d ∧ p = q
        · left; split <;> omega
        · exact .inr (.inr (.inr ⟨p, k1, mem_erase_ne k (by
            rcases Classical.not_and_iff_not_or_not.1 he with h1 | h1
            · exact .inl h1
            · exact .inr (by simpa using h1))⟩))
  | add d v =>
    intro c g hc hsch hg hge
    simp only [Sched.step] at hs
    split at hs
    case isFalse => simp at hs
    rename_i h1
    simp only [Option.some.injEq, Prod.mk.injEq] at hs
    obtain ⟨rfl, rfl⟩ := hs
    try simp only at hc hsch hg ⊢
    have hne : c ≠ d := by rintro rfl; rw [h1.2.2.2.1] at hg; simp at hg
    rw [set_other _ _ hne] at hc hsch
    have := hh c g hc hsch hg hge
    grind
  | enter d r =>
    intro c g hc hsch hg hge
    simp only [Sched.step] at hs
    split at hs
    case isFalse => simp at hs
    simp only [Option.some.injEq, Prod.mk.injEq] at hs
    obtain ⟨rfl, rfl⟩ := hs
    try simp only at hc hsch hg ⊢
    have hne : c ≠ d := by rintro rfl; simp [Ctx.canSchedule, Ctx.enter] at hsch
    rw [set_other _ _ hne] at hsch
    exact hh c g hc hsch hg hge
  | leave d r =>
    intro c g hc hsch hg hge
    simp only [Sched.step] at hs
    split at hs
    case isFalse => simp at hs
    simp only [Option.some.injEq, Prod.mk.injEq] at hs
    obtain ⟨rfl, rfl⟩ := hs
    try simp only at hc hsch hg ⊢
    by_cases hne : c = d
    · subst hne; exact .inr (.inl (by simp))
    · rw [set_other _ _ hne] at hsch
      have := hh c g hc hsch hg hge
      grind
  | setPrio d v self =>
    intro c g hc hsch hg hge
    simp only [Sched.step] at hs
    split at hs
    case isFalse => simp at hs
    rename_i h1
    split at hs
    all_goals simp only [Option.some.injEq, Prod.mk.injEq] at hs
    all_goals obtain ⟨rfl, rfl⟩ := hs
    all_goals try simp only at hc hsch hg ⊢
    · by_cases hne : c = d
      · subst hne; rw [h1.2.1] at hg; simp at hg
      · rw [set_other _ _ hne] at hsch; exact hh c g hc hsch hg hge
    · by_cases hne : c = d
      · subst hne
        rw [set_same] at hg hsch
        simp only [Option.some.injEq] at hg
        subst hg
        exact h.hint c hc hsch h1.2.1
      · rw [set_other _ _ hne] at hsch hg; exact hh c g hc hsch hg hge
  | erase d =>
    intro c g hc hsch hg hge
    simp only [Sched.step] at hs
    repeat' split at hs
    all_goals simp only [Option.some.injEq, Prod.mk.injEq, reduceCtorEq] at hs
    all_goals obtain ⟨rfl, rfl⟩ := hs
    all_goals try simp only at hc hsch hg ⊢
    all_goals by_cases hne : c = d
    · subst hne
      rw [set_same] at hg
      simp only [Option.some.injEq] at hg
      subst hg
      simp at hge
    · rw [set_other _ _ hne] at hg; exact hh c g hc hsch hg hge
    · subst hne; rw [set_same] at hg; simp at hg
    · rw [set_other _ _ hne] at hg; exact hh c g hc hsch hg hge
  | push d =>
    intro c g hc hsch hg hge
    simp only [Sched.step] at hs
    repeat' split at hs
    all_goals simp only [Option.some.injEq, Prod.mk.injEq, reduceCtorEq] at hs
    all_goals obtain ⟨rfl, rfl⟩ := hs
    simp only [State.updMin] at hc hsch hg ⊢
    by_cases hne : c = d
    · subst hne; rw [set_same] at hg; simp at hg
    · rw [set_other _ _ hne] at hg
      rcases hh c g hc hsch hg hge with k | k
      · left; split <;> omega
      · exact .inr k
  | finish d =>
    intro c g hc hsch hg hge
    simp only [Sched.step] at hs
    split at hs
    case isFalse => simp at hs
    simp only [Option.some.injEq, Prod.mk.injEq] at hs
    obtain ⟨rfl, rfl⟩ := hs
    try simp only at hc hsch hg ⊢
    have hne : c ≠ d := by rintro rfl; simp [Ctx.canSchedule] at hsch
    rw [set_other _ _ hne] at hsch
    exact hh c g hc hsch hg hge
  | unlock d =>
    intro c g hc hsch hg hge
    simp only [Sched.step] at hs
    split at hs
    case isFalse => simp at hs
    simp only [Option.some.injEq, Prod.mk.injEq] at hs
    obtain ⟨rfl, rfl⟩ := hs
    try simp only at hc hsch hg ⊢
    refine hh c g hc ?_ hg hge
    by_cases hne : c = d
    · subst hne; simpa [Ctx.canSchedule] using hsch
    · rwa [set_other _ _ hne] at hsch
  | remove d =>
    intro c g hc hsch hg hge
    simp only [Sched.step] at hs
    split at hs
    case isFalse => simp at hs
    simp only [Option.some.injEq, Prod.mk.injEq] at hs
    obtain ⟨rfl, rfl⟩ := hs
    try simp only at hc hsch hg ⊢
    have hne : c ≠ d := by rintro rfl; simp at hc
    rw [set_other _ _ hne] at hc
    exact hh c g hc hsch hg hge
  | takeAll =>
    intro c g hc hsch hg hge
    simp only [Sched.step] at hs
    split at hs
    case isFalse => simp at hs
    simp only [Option.some.injEq, Prod.mk.injEq] at hs
    obtain ⟨rfl, rfl⟩ := hs
    simp only [State.takeAll, Bool.and_eq_true] at hc hsch hg ⊢
    exact hh c g hc.1 hsch hg hge
  | takeOne =>
    intro c g hc hsch hg hge
    simp only [Sched.step] at hs
    repeat' split at hs
    all_goals simp only [Option.some.injEq, Prod.mk.injEq, reduceCtorEq] at hs
    all_goals obtain ⟨rfl, rfl⟩ := hs
    all_goals try simp only at hc hsch hg ⊢
    · rename_i d _
      have hne : c ≠ d := by rintro rfl; simp at hc
      rw [set_other _ _ hne] at hc
      exact hh c g hc hsch hg hge
    · exact hh c g hc hsch hg hge

/-- Proof device: nothing another thread does to the env makes a coroutine schedulable silently, until the wake-up call. -/
theorem told_step {s s' : Sched.State} {a : Act} {es : List Sched.Ev} (h : Inv s) (ht : Told s) (h1 : ∀ c r, a ≠ .enter c r)
    (h2 : ∀ c, a ≠ .finish c) (h3 : a ≠ .pick) (h4 : ∀ c p, a ≠ .wake c (.upd p)) (hs : Sched.step false s a = some (s', es)) :
    Told s' := by
  intro c hc hsch
  cases a with
  | pick => exact absurd rfl h3
  | enter d r => exact absurd rfl (h1 d r)
  | finish d => exact absurd rfl (h2 d)
  | wake d ph =>
    have hdead : s.mem c = true → s.dead c = false := by
      intro h1
      cases hd : s.dead c with
      | false => rfl
      | true => have := h.dead c hd; rw [h1] at this; simp at this
    cases ph with
    | upd p => exact absurd rfl (h4 d p)
    | test =>
      simp only [Sched.step] at hs
      repeat' split at hs
      all_goals simp only [Option.some.injEq, Prod.mk.injEq, reduceCtorEq] at hs
      all_goals obtain ⟨rfl, rfl⟩ := hs
      all_goals try simp only at hc hsch ⊢
      · rename_i k1 k2
        have hne : c ≠ d := by rintro rfl; rw [hdead hc] at k2; simp at k2
        obtain ⟨ph, hp⟩ := ht c hc hsch
        exact ⟨ph, mem_erase_ne hp (.inl hne)⟩
      · rename_i k1 k2 k3
        have hne : c ≠ d := by rintro rfl; simp [Ctx.canSchedule, k3] at hsch
        obtain ⟨ph, hp⟩ := ht c hc hsch
        exact ⟨ph, mem_erase_ne hp (.inl hne)⟩
      · by_cases hne : c = d
        · subst hne; exact ⟨_, List.mem_cons_self⟩
        · obtain ⟨ph, hp⟩ := ht c hc hsch
          exact ⟨ph, List.mem_cons_of_mem _ (mem_erase_ne hp (.inl hne))⟩
    | read =>
      simp only [Sched.step] at hs
      repeat' split at hs
      all_goals simp only [Option.some.injEq, Prod.mk.injEq, reduceCtorEq] at hs
      all_goals obtain ⟨rfl, rfl⟩ := hs
      all_goals try simp only at hc hsch ⊢
      · rename_i k1 k2
        have hne : c ≠ d := by rintro rfl; rw [hdead hc] at k2; simp at k2
        obtain ⟨ph, hp⟩ := ht c hc hsch
        exact ⟨ph, mem_erase_ne hp (.inl hne)⟩
      · by_cases hne : c = d
        · subst hne; exact ⟨_, List.mem_cons_self⟩
        · obtain ⟨ph, hp⟩ := ht c hc hsch
          exact ⟨ph, List.mem_cons_of_mem _ (mem_erase_ne hp (.inl hne))⟩
  | add d v =>
    simp only [Sched.step] at hs
    split at hs
    case isFalse => simp at hs
    simp only [Option.some.injEq, Prod.mk.injEq] at hs
    obtain ⟨rfl, rfl⟩ := hs
    try simp only at hc hsch ⊢
    by_cases hne : c = d
    · subst hne; exact ⟨_, List.mem_cons_self⟩
    · rw [set_other _ _ hne] at hc hsch
      obtain ⟨ph, hp⟩ := ht c hc hsch
      exact ⟨ph, List.mem_cons_of_mem _ hp⟩
  | leave d r =>
    simp only [Sched.step] at hs
    split at hs
    case isFalse => simp at hs
    simp only [Option.some.injEq, Prod.mk.injEq] at hs
    obtain ⟨rfl, rfl⟩ := hs
    try simp only at hc hsch ⊢
    by_cases hne : c = d
    · subst hne; exact ⟨_, List.mem_cons_self⟩
    · rw [set_other _ _ hne] at hsch
      obtain ⟨ph, hp⟩ := ht c hc hsch
      exact ⟨ph, List.mem_cons_of_mem _ hp⟩
  | setPrio d v self =>
    simp only [Sched.step] at hs
    repeat' split at hs
    all_goals simp only [Option.some.injEq, Prod.mk.injEq, reduceCtorEq] at hs
    all_goals obtain ⟨rfl, rfl⟩ := hs
    all_goals try simp only at hc hsch ⊢
    all_goals refine ht c hc ?_
    all_goals by_cases hne : c = d
    · subst hne; simpa [Ctx.canSchedule] using hsch
    · rwa [set_other _ _ hne] at hsch
    · subst hne; simpa [Ctx.canSchedule] using hsch
    · rwa [set_other _ _ hne] at hsch
  | erase d =>
    simp only [Sched.step] at hs
    repeat' split at hs
    all_goals simp only [Option.some.injEq, Prod.mk.injEq, reduceCtorEq] at hs
    all_goals obtain ⟨rfl, rfl⟩ := hs
    all_goals exact ht c hc hsch
  | push d =>
    simp only [Sched.step] at hs
    repeat' split at hs
    all_goals simp only [Option.some.injEq, Prod.mk.injEq, reduceCtorEq] at hs
    all_goals obtain ⟨rfl, rfl⟩ := hs
    exact ht c hc hsch
  | unlock d =>
    simp only [Sched.step] at hs
    split at hs
    case isFalse => simp at hs
    simp only [Option.some.injEq, Prod.mk.injEq] at hs
    obtain ⟨rfl, rfl⟩ := hs
    refine ht c hc ?_
    simp only at hsch
    by_cases hne : c = d
    · subst hne; simpa [Ctx.canSchedule] using hsch
    · rwa [set_other _ _ hne] at hsch
  | remove d =>
    simp only [Sched.step] at hs
    split at hs
    case isFalse => simp at hs
    simp only [Option.some.injEq, Prod.mk.injEq] at hs
    obtain ⟨rfl, rfl⟩ := hs
    try simp only at hc hsch ⊢
    have hne : c ≠ d := by rintro rfl; simp at hc
    rw [set_other _ _ hne] at hc
    exact ht c hc hsch
  | takeAll =>
    simp only [Sched.step] at hs
    split at hs
    case isFalse => simp at hs
    simp only [Option.some.injEq, Prod.mk.injEq] at hs
    obtain ⟨rfl, rfl⟩ := hs
    simp only [State.takeAll, Bool.and_eq_true] at hc hsch ⊢
    exact ht c hc.1 hsch
  | takeOne =>
    simp only [Sched.step] at hs
    repeat' split at hs
    all_goals simp only [Option.some.injEq, Prod.mk.injEq, reduceCtorEq] at hs
    all_goals obtain ⟨rfl, rfl⟩ := hs
    all_goals try simp only at hc hsch ⊢
    · rename_i d _
      have hne : c ≠ d := by rintro rfl; simp at hc
      rw [set_other _ _ hne] at hc
      exact ht c hc hsch
    · exact ht c hc hsch

/-! ## The invariant -/

@[simp] theorem envEvs_append (l m : List Ev) : envEvs (l ++ m) = envEvs l ++ envEvs m := by simp [envEvs]

@[simp] theorem envEvs_base (l : List Sched.Ev) (n : Nat) : envEvs (l.map Ev.b ++ List.replicate n Ev.call) = l := by
  rw [envEvs_append]
  have h1 : envEvs (l.map Ev.b) = l := by
    simp only [envEvs]
    induction l with
    | nil => rfl
    | cons a l ih => simp [ih]
  have h2 : envEvs (List.replicate n Ev.call) = [] := by simp [envEvs, List.filterMap_replicate]
  rw [h1, h2, List.append_nil]

theorem asleep_append (l m : List Ev) : asleep (l ++ m) = m.foldl noteSleep (asleep l) := by simp [asleep, List.foldl_append]

theorem sleep_base (z : Bool) (l : List Sched.Ev) (n : Nat) : (l.map Ev.b ++ List.replicate n Ev.call).foldl noteSleep z = z := by
  induction l with
  | nil =>
    induction n with
    | zero => rfl
    | succ n ih => simpa [List.replicate_succ, noteSleep] using ih
  | cons a l ih => simpa [noteSleep] using ih

theorem idleWaits_append (l m : List Ev) : idleWaits (l ++ m) = m.foldl noteWait (idleWaits l) := by
  simp [idleWaits, List.foldl_append]

theorem waits_base (w : List Nat) (l : List Sched.Ev) (n : Nat) : (l.map Ev.b ++ List.replicate n Ev.call).foldl noteWait w = w := by
  induction l with
  | nil =>
    induction n with
    | zero => rfl
    | succ n ih => simpa [List.replicate_succ, noteWait] using ih
  | cons a l ih => simpa [noteWait] using ih

theorem leaves_base (l : List Sched.Ev) (n : Nat) : (l.map Ev.b ++ List.replicate n Ev.call).countP isLeave = 0 := by
  rw [List.countP_eq_zero]
  intro x hx
  rw [List.mem_append, List.mem_map] at hx
  rcases hx with ⟨y, _, rfl⟩ | hx
  · simp [isLeave]
  · rw [List.eq_of_mem_replicate hx]; simp [isLeave]

theorem count_base (e : Ev) (he : ∀ x, e ≠ .b x) (l : List Sched.Ev) (n : Nat) :
    (l.map Ev.b ++ List.replicate n Ev.call).countP (· == e) = if e = .call then n else 0 := by
  rw [List.countP_append]
  have h1 : (l.map Ev.b).countP (· == e) = 0 := by
    rw [List.countP_eq_zero]
    intro x hx
    obtain ⟨y, _, rfl⟩ := List.mem_map.1 hx
    simpa using fun h => he y h.symm
  rw [h1, Nat.zero_add, List.countP_replicate]
  by_cases h : e = .call
  · simp [h]
  · simp [h, Ne.symm h]

/-- Proof device. (Concerns co_env.cpp:241-663.) -/
structure I (p : Par) (s : State) (tr : List Ev) : Prop where
  inv : Inv s.b
  agree : Agree s.b (view (envEvs tr))
  hint : Hint s.b
  zz : asleep tr = asleepPc s.pc
  fl : tr.countP (· == .call) = tr.countP (· == .ret) + s.nots + if s.ext = some true then 1 else 0
  iw : idleWaits tr = s.idle.res
  wait : s.idle.waiting = !s.idle.res.isEmpty
  ip : tr.countP isLeave = tr.countP (· == .iwakeDone) + s.ipend
  stp : s.stop = true ↔ Ev.stop ∈ tr
  oe : 0 < s.own → s.ext = none
  pcw : match s.pc with
    | .sw => 1 ≤ s.own
    | .tst1 _ => 1 ≤ s.own
    | .tst2 => 1 ≤ s.own
    | _ => True
  pco : p.held = false → match s.pc with
    | .user => True
    | .sw => s.own = 1
    | .tst1 _ => s.own = 1
    | .tst2 => s.own = 1
    | _ => s.own = 0
  plain : p.thr = false → (∀ c, s.b.mem c = false) ∧ match s.pc with
    | .user => True
    | .sw => True
    | .slp1 o => o = none
    | .tst1 o => o = none
    | .zz1 o => o = none
    | .nt1 o => o = none
    | _ => False
  key : asleepPc s.pc = true → s.nots = 0 → s.ext ≠ some true →
    Told s.b ∧ s.stop = false ∧ (p.thr = false → s.idle.waiting = true ∨ 0 < s.ipend)

theorem i_init (p : Par) : I p (State.init p) [] := by
  have h : (State.init p).pc = .top ∨ (State.init p).pc = .user := by simp only [State.init]; split <;> simp
  refine ⟨inv_init, agree_init, ?_, ?_, by simp [State.init], rfl, rfl, rfl, by simp [State.init], by simp [State.init], ?_, ?_, ?_, ?_⟩
  · intro c g hc; simp [State.init, Sched.State.init] at hc
  · rcases h with h | h <;> rw [h] <;> rfl
  · rcases h with h | h <;> rw [h] <;> trivial
  · intro _; rcases h with h | h <;> rw [h] <;> trivial
  · intro h2; simp [State.init, h2, Sched.State.init]
  · intro h2; rcases h with h | h <;> rw [h] at h2 <;> simp [asleepPc] at h2

theorem wakePc_asleep (q : Pc) : asleepPc (wakePc q) = false := by cases q <;> rfl

/-- A step without scheduling thread adds nothing. -/
theorem mem_step {s s' : Sched.State} {a : Act} {es : List Sched.Ev} (h : ∀ c, s.mem c = false) (h1 : ∀ c v, a ≠ .add c v)
    (hs : Sched.step false s a = some (s', es)) : ∀ c, s'.mem c = false := by
  intro d
  have hd := h d
  cases a <;> simp only [Sched.step] at hs
  case add c v => exact absurd rfl (h1 c v)
  all_goals repeat' split at hs
  all_goals simp only [Option.some.injEq, Prod.mk.injEq, reduceCtorEq] at hs
  all_goals obtain ⟨rfl, rfl⟩ := hs
  all_goals try simp only [State.updMin, State.takeAll, (pick_fields _).1, hd, set_apply, Bool.false_and]
  all_goals try split
  all_goals first | rfl | exact hd

theorem i_base {p : Par} {s s' : State} {a : Act} {self : Bool} {es tr : List Ev} (h : I p s tr)
    (hs : step p s (.base a self) = some (s', es)) : I p s' (tr ++ es) := by
  simp only [step] at hs
  split at hs
  case isFalse => simp at hs
  rename_i hal
  simp only [Option.map_eq_some_iff, Prod.mk.injEq] at hs
  obtain ⟨⟨b', fs⟩, hb, rfl, rfl⟩ := hs
  simp only
  have hself : self = true → s.pc = .user := by
    intro h1
    simp only [State.allows, h1, Bool.and_eq_true, Bool.not_true, Bool.false_or, beq_iff_eq] at hal
    exact hal.1
  refine ⟨inv_step h.inv hb, ?_, ?_, ?_, ?_, ?_, h.wait, ?_, ?_, h.oe, h.pcw, h.pco, ?_, ?_⟩
  · rw [envEvs_append, envEvs_base, view_append]; exact agree_step h.inv h.agree hb
  · refine hint_step h.inv h.hint ?_ hb
    rintro c rfl
    simp only [State.allows, Bool.and_eq_true, beq_iff_eq] at hal
    exact hal.2
  · rw [asleep_append, sleep_base]; exact h.zz
  · rw [List.countP_append (l₁ := tr), List.countP_append (l₁ := tr), count_base _ (by simp), count_base _ (by simp)]
    have := h.fl
    simp only [if_true, reduceCtorEq, if_false, Nat.add_zero]
    omega
  · rw [idleWaits_append, waits_base]; exact h.iw
  · rw [List.countP_append (l₁ := tr), leaves_base, List.countP_append (l₁ := tr), count_base _ (by simp)]
    simpa using h.ip
  · rw [List.mem_append]
    rw [h.stp]
    constructor
    · exact .inl
    · rintro (h1 | h1)
      · exact h1
      · simp at h1
  · intro ht
    refine ⟨mem_step (h.plain ht).1 ?_ hb, (h.plain ht).2⟩
    rintro c v rfl
    simp [State.allows, ht] at hal
  · intro h1 h2 h3
    have hnu : s.pc ≠ .user := by intro he; rw [he] at h1; simp [asleepPc] at h1
    have hn : s.nots = 0 := by simp only at h2; omega
    have hc : calls a self = 0 := by simp only at h2; omega
    have hsf : self = false := by
      cases self
      · rfl
      · exact absurd (hself rfl) hnu
    obtain ⟨k1, k2, k3⟩ := h.key h1 hn h3
    refine ⟨told_step h.inv k1 ?_ ?_ ?_ ?_ hb, k2, k3⟩
    · rintro c r rfl; simp [State.allows, hnu] at hal
    · rintro c rfl; simp [State.allows, hnu] at hal
    · rintro rfl; simp [State.allows] at hal
    · rintro c q rfl; simp [calls, hsf] at hc

/-- Proof device: steps that leave the env alone. -/
theorem i_same {p : Par} {s s' : State} {es tr : List Ev} (h : I p s tr) (hb : s'.b = s.b) (he : envEvs es = [])
    (zz : es.foldl noteSleep (asleepPc s.pc) = asleepPc s'.pc)
    (fl : es.countP (· == .call) + s.nots + (if s.ext = some true then 1 else 0) =
      es.countP (· == .ret) + s'.nots + if s'.ext = some true then 1 else 0)
    (iw : es.foldl noteWait s.idle.res = s'.idle.res) (wait : s'.idle.waiting = !s'.idle.res.isEmpty)
    (ip : es.countP isLeave + s.ipend = es.countP (· == .iwakeDone) + s'.ipend)
    (stp : s'.stop = true ↔ s.stop = true ∨ Ev.stop ∈ es) (oe : 0 < s'.own → s'.ext = none)
    (pcw : match s'.pc with
      | .sw => 1 ≤ s'.own
      | .tst1 _ => 1 ≤ s'.own
      | .tst2 => 1 ≤ s'.own
      | _ => True)
    (pco : p.held = false → match s'.pc with
      | .user => True
      | .sw => s'.own = 1
      | .tst1 _ => s'.own = 1
      | .tst2 => s'.own = 1
      | _ => s'.own = 0)
    (plain : p.thr = false → match s'.pc with
      | .user => True
      | .sw => True
      | .slp1 o => o = none
      | .tst1 o => o = none
      | .zz1 o => o = none
      | .nt1 o => o = none
      | _ => False)
    (key : asleepPc s'.pc = true → s'.nots = 0 → s'.ext ≠ some true →
      Told s.b ∧ s'.stop = false ∧ (p.thr = false → s'.idle.waiting = true ∨ 0 < s'.ipend)) : I p s' (tr ++ es) := by
  refine ⟨by rw [hb]; exact h.inv, by rw [hb, envEvs_append, he, List.append_nil]; exact h.agree, by rw [hb]; exact h.hint, ?_, ?_, ?_,
    wait, ?_, ?_, oe, pcw, pco, fun ht => ⟨by rw [hb]; exact (h.plain ht).1, plain ht⟩, fun h1 h2 h3 => by rw [hb]; exact key h1 h2 h3⟩
  · rw [asleep_append, h.zz, zz]
  · have := h.fl
    rw [List.countP_append, List.countP_append]
    omega
  · rw [idleWaits_append, h.iw, iw]
  · have := h.ip
    rw [List.countP_append, List.countP_append]
    omega
  · rw [stp, h.stp, List.mem_append]

theorem i_go {p : Par} {s s' : State} {es tr : List Ev} (h : I p s tr) (hs : go p s = some (s', es)) : I p s' (tr ++ es) := by
  have hw := h.wait
  have hoe := h.oe
  have hpw := h.pcw
  have hpo := h.pco
  have hpl := h.plain
  simp only [go] at hs
  cases hpc : s.pc with
  | user => simp [hpc] at hs
  | zz1 o => simp [hpc] at hs
  | zz2 => simp [hpc] at hs
  | gone => simp [hpc] at hs
  | sw =>
    simp only [hpc] at hs hpw hpo hpl
    have hcurr : p.thr = false → s.b.curr = none := by
      intro ht
      cases hc : s.b.curr with
      | none => rfl
      | some c => have := (h.inv.curr c hc).1; rw [(hpl ht).1 c] at this; simp at this
    split at hs
    case isFalse => simp at hs
    rename_i hmu
    split at hs
    · simp only [Option.some.injEq, Prod.mk.injEq] at hs
      obtain ⟨rfl, rfl⟩ := hs
      refine i_same h rfl rfl ?_ ?_ rfl hw ?_ ?_ ?_ ?_ ?_ ?_ ?_ <;> simp_all [asleepPc]
      · intro h1; exact hoe (by omega)
    · have hpick : Sched.step false s.b .pick = some (s.b.pick.1, [.pick s.b.pick.2]) := by
        simp [Sched.step, State.muFree, hmu]
      have hI := inv_step h.inv hpick
      have hA := agree_step h.inv h.agree hpick
      have hH := hint_pick h.inv h.hint
      have hM := (pick_fields s.b).1
      rw [← view_append] at hA
      split at hs
      all_goals
        rename_i hp
        simp only [Option.some.injEq, Prod.mk.injEq] at hs
        obtain ⟨rfl, rfl⟩ := hs
        rw [hp] at hA
        have hfl := h.fl
        have hip := h.ip
        have hst := h.stp
        refine ⟨hI, by rw [envEvs_append]; exact hA, hH, ?_, ?_, ?_, hw, ?_, ?_, ?_, ?_, ?_, ?_, ?_⟩
        · rw [asleep_append, h.zz, hpc]; rfl
        · simpa [List.countP_append] using hfl
        · rw [idleWaits_append, h.iw]; rfl
        · simpa [List.countP_append, isLeave] using hip
        · simpa using hst
        · intro h1; exact hoe (by simp only at h1; omega)
        · simp
        · intro h1; simp [hpo h1]
        · intro h1; simp only [hM]; exact ⟨(hpl h1).1, by simp [hcurr h1]⟩
        · simp [asleepPc]
  | slp1 o =>
    simp only [hpc] at hs hpw hpo hpl
    split at hs
    case isFalse => simp at hs
    simp only [Option.some.injEq, Prod.mk.injEq] at hs
    obtain ⟨rfl, rfl⟩ := hs
    refine i_same h rfl rfl ?_ ?_ rfl hw ?_ ?_ ?_ ?_ ?_ ?_ ?_ <;> simp_all [asleepPc]
  | nt1 o =>
    simp only [hpc] at hs hpw hpo hpl
    split at hs
    case isFalse => simp at hs
    simp only [Option.some.injEq, Prod.mk.injEq] at hs
    obtain ⟨rfl, rfl⟩ := hs
    refine i_same h rfl rfl ?_ ?_ rfl hw ?_ ?_ ?_ ?_ ?_ ?_ ?_ <;> simp_all [asleepPc]
  | back =>
    simp only [hpc] at hs hpw hpo hpl
    split at hs
    case isFalse => simp at hs
    simp only [Option.some.injEq, Prod.mk.injEq] at hs
    obtain ⟨rfl, rfl⟩ := hs
    refine i_same h rfl rfl ?_ ?_ rfl hw ?_ ?_ ?_ ?_ ?_ ?_ ?_ <;> simp_all [asleepPc]
  | nt2 =>
    simp only [hpc] at hs hpw hpo hpl
    split at hs
    case isFalse => simp at hs
    simp only [Option.some.injEq, Prod.mk.injEq] at hs
    obtain ⟨rfl, rfl⟩ := hs
    refine i_same h rfl rfl ?_ ?_ rfl hw ?_ ?_ ?_ ?_ ?_ ?_ ?_ <;> simp_all [asleepPc]
  | top =>
    simp only [hpc] at hs hpw hpo hpl
    repeat' split at hs
    all_goals simp only [Option.some.injEq, Prod.mk.injEq, reduceCtorEq] at hs
    all_goals obtain ⟨rfl, rfl⟩ := hs
    all_goals refine i_same h rfl rfl ?_ ?_ rfl hw ?_ ?_ ?_ ?_ ?_ ?_ ?_ <;> simp_all [asleepPc]
  | tst1 o =>
    simp only [hpc] at hs hpw hpo hpl
    split at hs
    case isFalse => simp at hs
    rename_i hmu
    split at hs
    · rename_i hsl
      simp only [State.needSleep, Bool.and_eq_true, beq_iff_eq, Bool.not_eq_true'] at hsl
      have htold := told_of_search h.inv h.hint hmu hsl.1.1
      simp only [Option.some.injEq, Prod.mk.injEq] at hs
      obtain ⟨rfl, rfl⟩ := hs
      refine i_same h rfl rfl ?_ ?_ rfl hw ?_ ?_ ?_ ?_ ?_ ?_ ?_ <;> simp_all [asleepPc, noteSleep, isLeave]
      · intro h1; exact hoe (by omega)
      · intro h1 h2 h3
        have := hsl.2
        rw [(hpl h3).2] at this
        simp only [State.waits] at this
        rw [hw] at this
        left
        simpa using this
    · simp only [Option.some.injEq, Prod.mk.injEq] at hs
      obtain ⟨rfl, rfl⟩ := hs
      have hpc' : (if p.thr = true then Pc.back else Pc.user) = .back ∧ p.thr = true ∨
          (if p.thr = true then Pc.back else Pc.user) = .user ∧ p.thr = false := by
        cases p.thr <;> simp
      rcases hpc' with ⟨e1, e2⟩ | ⟨e1, e2⟩
      all_goals
        rw [e1]
        refine i_same h rfl rfl ?_ ?_ rfl hw ?_ ?_ ?_ ?_ ?_ ?_ ?_ <;> simp_all [asleepPc, noteSleep, isLeave]
        intro h1; exact hoe (by omega)
  | tst2 =>
    simp only [hpc] at hs hpw hpo hpl
    split at hs
    case isFalse => simp at hs
    rename_i hmu
    split at hs
    · rename_i hsl
      simp only [State.needSleep, Bool.and_eq_true, beq_iff_eq, Bool.not_eq_true'] at hsl
      have htold := told_of_search h.inv h.hint hmu hsl.1
      simp only [Option.some.injEq, Prod.mk.injEq] at hs
      obtain ⟨rfl, rfl⟩ := hs
      refine i_same h rfl rfl ?_ ?_ rfl hw ?_ ?_ ?_ ?_ ?_ ?_ ?_ <;> simp_all [asleepPc, noteSleep, isLeave]
      · intro h1; exact hoe (by omega)
    · simp only [Option.some.injEq, Prod.mk.injEq] at hs
      obtain ⟨rfl, rfl⟩ := hs
      refine i_same h rfl rfl ?_ ?_ rfl hw ?_ ?_ ?_ ?_ ?_ ?_ ?_ <;> simp_all [asleepPc, noteSleep, isLeave]
      · intro h1; exact hoe (by omega)

theorem leave_wait {v : Ctx} {r : Nat} (h : v.waiting = !v.res.isEmpty) : (v.leave r).waiting = !(v.leave r).res.isEmpty := by
  simp only [Ctx.leave]
  split
  · rename_i hr; rw [hr]; rfl
  · rename_i hr
    rw [h]
    cases hx : v.res with
    | nil => rw [hx] at hr; simp at hr
    | cons x l =>
      rw [hx] at hr
      cases hy : List.filter (fun x => decide (x ≠ r)) (x :: l) with
      | nil => exact absurd hy hr
      | cons => rfl

theorem i_step {p : Par} {s s' : State} {a : A} {es tr : List Ev} (h : I p s tr) (hs : step p s a = some (s', es)) :
    I p s' (tr ++ es) := by
  have hw := h.wait
  have hoe := h.oe
  have hpw := h.pcw
  have hpo := h.pco
  have hpl := h.plain
  have hkey := h.key
  cases a with
  | base a self => exact i_base h hs
  | go => exact i_go h hs
  | lock =>
    simp only [step] at hs
    repeat' split at hs
    all_goals simp only [Option.some.injEq, Prod.mk.injEq, reduceCtorEq] at hs
    all_goals obtain ⟨rfl, rfl⟩ := hs
    refine i_same h rfl rfl ?_ ?_ rfl hw ?_ ?_ ?_ ?_ ?_ ?_ ?_ <;> simp_all [asleepPc, noteSleep, isLeave]
  | unlock =>
    simp only [step] at hs
    repeat' split at hs
    all_goals simp only [Option.some.injEq, Prod.mk.injEq, reduceCtorEq] at hs
    all_goals obtain ⟨rfl, rfl⟩ := hs
    refine i_same h rfl rfl ?_ ?_ rfl hw ?_ ?_ ?_ ?_ ?_ ?_ ?_ <;> simp_all [asleepPc, noteSleep, isLeave]
  | yield =>
    simp only [step] at hs
    repeat' split at hs
    all_goals simp only [Option.some.injEq, Prod.mk.injEq, reduceCtorEq] at hs
    all_goals obtain ⟨rfl, rfl⟩ := hs
    rename_i h1
    refine i_same h rfl rfl ?_ ?_ rfl hw ?_ ?_ ?_ ?_ ?_ ?_ ?_ <;> simp_all [asleepPc, noteSleep, isLeave]
    intro h2; simpa [h2] using h1.2.2.2
  | spurious =>
    simp only [step] at hs
    repeat' split at hs
    all_goals simp only [Option.some.injEq, Prod.mk.injEq, reduceCtorEq] at hs
    all_goals obtain ⟨rfl, rfl⟩ := hs
    cases hpc : s.pc <;>
      refine i_same h rfl rfl ?_ ?_ rfl hw ?_ ?_ ?_ ?_ ?_ ?_ ?_ <;> simp_all [asleepPc, noteSleep, isLeave, wakePc]
  | ienter r =>
    simp only [step] at hs
    repeat' split at hs
    all_goals simp only [Option.some.injEq, Prod.mk.injEq, reduceCtorEq] at hs
    all_goals obtain ⟨rfl, rfl⟩ := hs
    refine i_same h rfl rfl ?_ ?_ rfl ?_ ?_ ?_ ?_ ?_ ?_ ?_ ?_
    case refine_3 => simp only [Ctx.enter]; split <;> rename_i hr <;> simp; intro he; rw [he] at hr; simp at hr
    all_goals simp_all [asleepPc, noteSleep, isLeave]
  | ileave r =>
    simp only [step] at hs
    repeat' split at hs
    all_goals simp only [Option.some.injEq, Prod.mk.injEq, reduceCtorEq] at hs
    all_goals obtain ⟨rfl, rfl⟩ := hs
    refine i_same h rfl rfl ?_ ?_ rfl ?_ ?_ ?_ ?_ ?_ ?_ ?_ ?_
    case refine_3 => exact leave_wait hw
    all_goals simp_all [asleepPc, noteSleep, isLeave]
    · omega
  | itest =>
    simp only [step] at hs
    repeat' split at hs
    all_goals simp only [Option.some.injEq, Prod.mk.injEq, reduceCtorEq] at hs
    all_goals obtain ⟨rfl, rfl⟩ := hs
    all_goals refine i_same h rfl rfl ?_ ?_ rfl hw ?_ ?_ ?_ ?_ ?_ ?_ ?_ <;> simp_all [asleepPc, noteSleep, isLeave]
    all_goals omega
  | notLock =>
    simp only [step] at hs
    repeat' split at hs
    all_goals simp only [Option.some.injEq, Prod.mk.injEq, reduceCtorEq] at hs
    all_goals obtain ⟨rfl, rfl⟩ := hs
    refine i_same h rfl rfl ?_ ?_ rfl hw ?_ ?_ ?_ ?_ ?_ ?_ ?_ <;> simp_all [asleepPc, noteSleep, isLeave]
    omega
  | extLock =>
    simp only [step] at hs
    repeat' split at hs
    all_goals simp only [Option.some.injEq, Prod.mk.injEq, reduceCtorEq] at hs
    all_goals obtain ⟨rfl, rfl⟩ := hs
    refine i_same h rfl rfl ?_ ?_ rfl hw ?_ ?_ ?_ ?_ ?_ ?_ ?_ <;> simp_all [asleepPc, noteSleep, isLeave]
  | extRel =>
    simp only [step] at hs
    split at hs
    · rename_i he
      simp only [Option.some.injEq, Prod.mk.injEq] at hs
      obtain ⟨rfl, rfl⟩ := hs
      cases hpc : s.pc <;>
        refine i_same h rfl ?_ ?_ ?_ ?_ hw ?_ ?_ ?_ ?_ ?_ ?_ ?_ <;>
          simp_all [asleepPc, noteSleep, isLeave, wakePc, envEvs, noteWait] <;> omega
    · rename_i he
      simp only [Option.some.injEq, Prod.mk.injEq] at hs
      obtain ⟨rfl, rfl⟩ := hs
      refine i_same h rfl rfl ?_ ?_ rfl hw ?_ ?_ ?_ ?_ ?_ ?_ ?_ <;> simp_all [asleepPc, noteSleep, isLeave]
    · simp at hs
  | stop =>
    simp only [step] at hs
    repeat' split at hs
    all_goals simp only [Option.some.injEq, Prod.mk.injEq, reduceCtorEq] at hs
    all_goals obtain ⟨rfl, rfl⟩ := hs
    refine i_same h rfl rfl ?_ ?_ rfl hw ?_ ?_ ?_ ?_ ?_ ?_ ?_ <;> simp_all [asleepPc, noteSleep, isLeave]
    omega

theorem i_runs {p : Par} {as : List A} {s : State} {tr : List Ev} (h : runs (step p) (State.init p) as = some (s, tr)) : I p s tr := by
  have := runs_hist (step := step p) (I p) (fun s a s' es tr hI hs => i_step hI hs) as (State.init p) s tr [] (i_init p) h
  simpa using this

/-- **C86**, no wake-up is lost: whenever the thread sleeps although one of its coroutines can run, or it was told to stop, or (plain
thread) what it waited for has happened, somebody is about to wake it: a wake-up or an addition is in progress, or a call of
`wake_up` has not returned. -/
theorem C86_no_lost_wakeup {p : Par} {as : List A} {s : State} {tr : List Ev} (h : runs (step p) (State.init p) as = some (s, tr))
    (hz : asleep tr = true)
    (hr : (∃ c, (view (envEvs tr)).runnable c) ∨ Ev.stop ∈ tr ∨ (p.thr = false ∧ idleWaits tr = [])) : waking tr := by
  have hI := i_runs h
  simp only [waking]
  by_cases hn : s.nots = 0 ∧ s.ext ≠ some true
  · obtain ⟨k1, k2, k3⟩ := hI.key (by rw [← hI.zz]; exact hz) hn.1 hn.2
    rcases hr with ⟨c, hc⟩ | hr | ⟨hr1, hr2⟩
    · obtain ⟨h1, h2⟩ := (runnable_iff hI.inv hI.agree c).1 hc
      obtain ⟨ph, hp⟩ := k1 c h1 h2
      exact .inl ⟨c, by rw [hI.agree.wake]; exact wakes_pos hp⟩
    · rw [← hI.stp, k2] at hr; simp at hr
    · rcases k3 hr1 with h1 | h1
      · rw [hI.iw] at hr2
        rw [hI.wait, hr2] at h1
        simp at h1
      · exact .inr (.inl (by have := hI.ip; simp only [idleWakes]; omega))
  · refine .inr (.inr ?_)
    have := hI.fl
    simp only [inFlight]
    by_cases h1 : s.ext = some true
    · rw [if_pos h1] at this; omega
    · rw [if_neg h1] at this
      have : s.nots ≠ 0 := fun h2 => hn ⟨h2, h1⟩
      omega

/-! ## The thread does wake up -/

/-- The steps of the library that are under way and wait for nothing but their turn: the thread inside the scheduler, wake-ups, calls of
`wake_up`, priority changes. Not among them: what user code does, new operations, spurious wake-ups. (Concerns co_env.cpp:241-663.) -/
def system : A → Bool
  | .go => true
  | .itest => true
  | .notLock => true
  | .extRel => true
  | .base (.wake _ _) self => !self
  | .base (.erase _) self => !self
  | .base (.push _) self => !self
  | _ => false

/-- Proof device. (Concerns co_env.cpp:241-663.) -/
structure J (s : State) : Prop where
  self : ∀ c g, s.b.chg c = some g → g.self = true → s.b.curr = some c ∧ s.pc = .user
  gone : s.pc = .gone → s.stop = true
  fin : ∃ L : List Nat, L.Nodup ∧ ∀ c, s.b.chg c ≠ none → c ∈ L

theorem chg_step {s s' : Sched.State} {a : Act} {es : List Sched.Ev} (hs : Sched.step false s a = some (s', es)) (ha : a ≠ .pick) :
    s'.curr = s.curr ∧ ((∃ c v me, a = .setPrio c v me ∧ (me = true → s.curr = some c) ∧
      (s'.chg = s.chg ∨ ∃ o, s'.chg = set s.chg c (some ⟨o, false, me⟩))) ∨
      (∃ c g, a = .erase c ∧ s.chg c = some g ∧ g.erased = false ∧
        (s'.chg = set s.chg c none ∨ s'.chg = set s.chg c (some { g with erased := true }))) ∨
      (∃ c g, a = .push c ∧ s.chg c = some g ∧ g.erased = true ∧ s'.chg = set s.chg c none) ∨ s'.chg = s.chg) := by
  cases a <;> simp only [Sched.step] at hs
  case pick => exact absurd rfl ha
  all_goals repeat' split at hs
  all_goals simp only [Option.some.injEq, Prod.mk.injEq, reduceCtorEq] at hs
  all_goals obtain ⟨rfl, rfl⟩ := hs
  all_goals try simp only [State.updMin, State.takeAll]
  all_goals refine ⟨by trivial, ?_⟩
  all_goals grind

theorem j_init (p : Par) : J (State.init p) := by
  refine ⟨?_, ?_, [], by simp, ?_⟩
  · intro c g h; simp [State.init, Sched.State.init] at h
  · intro h; simp only [State.init] at h; split at h <;> simp at h
  · intro c h; simp [State.init, Sched.State.init] at h

theorem j_step {p : Par} {s s' : State} {a : A} {es : List Ev} (h : J s) (hs : step p s a = some (s', es)) : J s' := by
  obtain ⟨h1, h2, L, hL, h3⟩ := h
  cases a with
  | base a self =>
    simp only [step] at hs
    split at hs
    case isFalse => simp at hs
    rename_i hal
    simp only [Option.map_eq_some_iff, Prod.mk.injEq] at hs
    obtain ⟨⟨b', fs⟩, hb, rfl, rfl⟩ := hs
    have hp : a ≠ .pick := by rintro rfl; simp [State.allows] at hal
    obtain ⟨hc, hg⟩ := chg_step hb hp
    have hself : ∀ c v, a = .setPrio c v true → s.pc = .user := by
      rintro c v rfl; simp only [State.allows, Bool.and_eq_true] at hal; simpa using hal.2
    refine ⟨?_, h2, ?_⟩
    · intro c g hcg hgs
      simp only at hcg ⊢
      rw [hc]
      rcases hg with ⟨d, v, me, rfl, hd, hg | ⟨o, hg⟩⟩ | ⟨d, g', rfl, hd, he, hg | hg⟩ | ⟨d, g', rfl, hd, he, hg⟩ | hg
      all_goals rw [hg] at hcg
      · exact h1 c g hcg hgs
      · by_cases hcd : c = d
        · subst hcd
          rw [set_same] at hcg
          simp only [Option.some.injEq] at hcg
          subst hcg
          simp only at hgs
          subst hgs
          exact ⟨hd rfl, hself _ _ rfl⟩
        · rw [set_other _ _ hcd] at hcg; exact h1 c g hcg hgs
      · by_cases hcd : c = d
        · subst hcd; rw [set_same] at hcg; simp at hcg
        · rw [set_other _ _ hcd] at hcg; exact h1 c g hcg hgs
      · by_cases hcd : c = d
        · subst hcd
          rw [set_same] at hcg
          simp only [Option.some.injEq] at hcg
          subst hcg
          exact h1 c g' hd hgs
        · rw [set_other _ _ hcd] at hcg; exact h1 c g hcg hgs
      · by_cases hcd : c = d
        · subst hcd; rw [set_same] at hcg; simp at hcg
        · rw [set_other _ _ hcd] at hcg; exact h1 c g hcg hgs
      · exact h1 c g hcg hgs
    · rcases hg with ⟨d, v, me, rfl, hd, hg | ⟨o, hg⟩⟩ | ⟨d, g', rfl, hd, he, hg | hg⟩ | ⟨d, g', rfl, hd, he, hg⟩ | hg
      · exact ⟨L, hL, fun c hc => h3 c (by simpa [hg] using hc)⟩
      · by_cases hdL : d ∈ L
        · refine ⟨L, hL, fun c hc => ?_⟩
          simp only [hg, set_apply] at hc
          by_cases hcd : c = d
          · rw [hcd]; exact hdL
          · rw [if_neg hcd] at hc; exact h3 c hc
        · refine ⟨d :: L, List.nodup_cons.2 ⟨hdL, hL⟩, fun c hc => ?_⟩
          simp only [hg, set_apply] at hc
          by_cases hcd : c = d
          · rw [hcd]; exact List.mem_cons_self
          · rw [if_neg hcd] at hc; exact List.mem_cons_of_mem _ (h3 c hc)
      all_goals
        refine ⟨L, hL, fun c hc => h3 c ?_⟩
        simp only [hg, set_apply] at hc
        grind
  | go =>
    simp only [step, go] at hs
    have hpf := pick_fields s.b
    cases hpc : s.pc <;> simp only [hpc] at hs
    all_goals repeat' split at hs
    all_goals simp only [Option.some.injEq, Prod.mk.injEq, reduceCtorEq] at hs
    all_goals obtain ⟨rfl, rfl⟩ := hs
    all_goals refine ⟨?_, ?_, L, hL, ?_⟩
    all_goals simp only [hpf.2.2.2.1]
    all_goals first
      | exact h3
      | (intro c g hg hgs; have := (h1 c g hg hgs).2; rw [hpc] at this; simp at this)
      | (simp; done)
      | (intro _; assumption)
      | (split <;> simp)
  | yield =>
    simp only [step] at hs
    repeat' split at hs
    all_goals simp only [Option.some.injEq, Prod.mk.injEq, reduceCtorEq] at hs
    all_goals obtain ⟨rfl, rfl⟩ := hs
    rename_i hy
    refine ⟨?_, by simp, L, hL, h3⟩
    intro c g hg hgs
    have := (h1 c g hg hgs).1
    have h4 := hy.2.2.1
    simp only at hg
    simp [State.selfFree, this, hg, hgs] at h4
  | extRel =>
    simp only [step] at hs
    repeat' split at hs
    all_goals simp only [Option.some.injEq, Prod.mk.injEq, reduceCtorEq] at hs
    all_goals obtain ⟨rfl, rfl⟩ := hs
    all_goals first
      | exact ⟨h1, h2, L, hL, h3⟩
      | (refine ⟨?_, ?_, L, hL, h3⟩
         · intro c g hg hgs
           have := h1 c g hg hgs
           exact ⟨this.1, by simp [this.2, wakePc]⟩
         · intro hg; refine h2 ?_; cases hpc : s.pc <;> simp_all [wakePc])
  | spurious =>
    simp only [step] at hs
    repeat' split at hs
    all_goals simp only [Option.some.injEq, Prod.mk.injEq, reduceCtorEq] at hs
    all_goals obtain ⟨rfl, rfl⟩ := hs
    refine ⟨?_, ?_, L, hL, h3⟩
    · intro c g hg hgs
      have := h1 c g hg hgs
      exact ⟨this.1, by simp [this.2, wakePc]⟩
    · intro hg; refine h2 ?_; cases hpc : s.pc <;> simp_all [wakePc]
  | stop =>
    simp only [step] at hs
    repeat' split at hs
    all_goals simp only [Option.some.injEq, Prod.mk.injEq, reduceCtorEq] at hs
    all_goals obtain ⟨rfl, rfl⟩ := hs
    exact ⟨h1, fun _ => rfl, L, hL, h3⟩
  | _ =>
    simp only [step] at hs
    repeat' split at hs
    all_goals simp only [Option.some.injEq, Prod.mk.injEq, reduceCtorEq] at hs
    all_goals obtain ⟨rfl, rfl⟩ := hs
    all_goals exact ⟨h1, h2, L, hL, h3⟩

/-- Proof device: how far the thread is from user code, from sleep or from its end. (Concerns co_env.cpp:241-663.) -/
def rank (s : State) : Nat :=
  if s.stop = true then
    match s.pc with
    | .sw => 9
    | .slp1 _ => 8
    | .nt1 _ => 8
    | .tst1 _ => 7
    | .back => 6
    | .nt2 => 6
    | .tst2 => 5
    | .top => 4
    | _ => 0
  else if s.b.search = none then
    match s.pc with
    | .top => 9
    | .sw => 8
    | .slp1 _ => 7
    | .nt1 _ => 7
    | .tst1 _ => 6
    | .back => 5
    | .nt2 => 5
    | .tst2 => 4
    | _ => 0
  else
    match s.pc with
    | .slp1 _ => 9
    | .nt1 _ => 9
    | .tst1 _ => 8
    | .back => 7
    | .nt2 => 7
    | .tst2 => 6
    | .top => 5
    | .sw => 4
    | _ => 0

theorem rank_lt (s : State) : rank s < 20 := by
  simp only [rank]
  repeat' split
  all_goals omega

/-- Proof device. (Concerns co_env.cpp:241-663.) -/
def phW : Ph → Nat
  | .test => 120
  | .read => 100
  | .upd _ => 80

/-- Proof device. (Concerns co_env.cpp:241-663.) -/
def chgW : Option Chg → Nat
  | none => 0
  | some g => if g.erased = true then 20 else 40

/-- Proof device. (Concerns co_env.cpp:241-663.) -/
def meas (L : List Nat) (s : State) : Nat :=
  rank s + (s.b.pend.map fun x => phW x.2).sum + (L.map fun c => chgW (s.b.chg c)).sum + 40 * s.nots + 80 * s.ipend +
    if s.ext = none then 0 else 20

theorem search_pick_none {s : Sched.State} (h : s.pick.2 = none) : s.search = none ∧ s.pick.1.search = none := by
  have hs : s.search = none := by
    simp only [State.pick] at h
    split at h
    · assumption
    · simp at h
  refine ⟨hs, ?_⟩
  have hc := fun c => (pick_ctx (s := s) c).2.2.2.2.2.2.2
  have : s.pick.1.search = s.search := by
    simp only [State.search, hc]
    simp only [State.pick, hs]
  rw [this, hs]

theorem search_pick_some {s : Sched.State} {c : Nat} (h : s.pick.2 = some c) : s.search ≠ none := by
  intro hs
  simp [State.pick, hs] at h

theorem go_rank {p : Par} {s s' : State} {es : List Ev} (hs : go p s = some (s', es)) : rank s' < rank s := by
  have hn := search_pick_none (s := s.b)
  have hsome := fun c => search_pick_some (s := s.b) (c := c)
  simp only [go] at hs
  cases hst : s.stop <;> cases hsr : s.b.search <;> cases hpc : s.pc <;>
    simp only [hpc, hst, State.needSleep, hsr, Bool.false_eq_true, if_false, if_true] at hs
  all_goals repeat' split at hs
  all_goals simp only [Option.some.injEq, Prod.mk.injEq, reduceCtorEq] at hs
  all_goals obtain ⟨rfl, rfl⟩ := hs
  all_goals simp_all [rank]
  all_goals try split
  all_goals simp_all

theorem sum_erase {l : List (Nat × Ph)} {x : Nat × Ph} (f : Nat × Ph → Nat) (h : x ∈ l) :
    (l.map f).sum = f x + ((l.erase x).map f).sum := by
  induction l with
  | nil => simp at h
  | cons y l ih =>
    by_cases hy : y = x
    · subst hy; simp
    · have : x ∈ l := by
        rcases List.mem_cons.1 h with h1 | h1
        · exact absurd h1.symm hy
        · exact h1
      rw [List.erase_cons_tail (by simpa using hy), List.map_cons, List.sum_cons, List.map_cons, List.sum_cons, ih this]
      omega

theorem sum_set {L : List Nat} {f : Nat → Option Chg} {c : Nat} {v : Option Chg} (hL : L.Nodup) (hc : c ∈ L) :
    (L.map fun d => chgW (set f c v d)).sum + chgW (f c) = (L.map fun d => chgW (f d)).sum + chgW v := by
  induction L with
  | nil => simp at hc
  | cons y l ih =>
    rw [List.nodup_cons] at hL
    simp only [List.map_cons, List.sum_cons]
    by_cases hy : y = c
    · subst hy
      have : (l.map fun d => chgW (set f y v d)) = l.map fun d => chgW (f d) := by
        apply List.map_congr_left
        intro d hd
        rw [set_other]
        rintro rfl; exact hL.1 hd
      rw [this, set_same]
      omega
    · have hc' : c ∈ l := by
        rcases List.mem_cons.1 hc with h1 | h1
        · exact absurd h1.symm hy
        · exact h1
      have := ih hL.2 hc'
      rw [set_other _ _ hy]
      omega

theorem meas_base {p : Par} {s s' : State} {a : Act} {es : List Ev} {L : List Nat} (hL : L.Nodup) (hc : ∀ c, s.b.chg c ≠ none → c ∈ L)
    (hsys : system (.base a false) = true) (hs : step p s (.base a false) = some (s', es)) : meas L s' < meas L s := by
  simp only [step] at hs
  split at hs
  case isFalse => simp at hs
  simp only [Option.map_eq_some_iff, Prod.mk.injEq] at hs
  obtain ⟨⟨b', fs⟩, hb, rfl, rfl⟩ := hs
  have r1 := rank_lt { s with b := b', nots := s.nots + calls a false }
  simp only [meas]
  cases a with
  | wake c ph =>
    cases ph with
    | test =>
      simp only [Sched.step] at hb
      repeat' split at hb
      all_goals simp only [Option.some.injEq, Prod.mk.injEq, reduceCtorEq] at hb
      all_goals obtain ⟨rfl, rfl⟩ := hb
      all_goals
        rename_i hm _
        have := sum_erase (fun x => phW x.2) (by assumption : (c, Ph.test) ∈ s.b.pend)
        simp only [phW, List.map_cons, List.sum_cons, calls] at this r1 ⊢
        omega
    | read =>
      simp only [Sched.step] at hb
      repeat' split at hb
      all_goals simp only [Option.some.injEq, Prod.mk.injEq, reduceCtorEq] at hb
      all_goals obtain ⟨rfl, rfl⟩ := hb
      all_goals
        have := sum_erase (fun x => phW x.2) (by assumption : (c, Ph.read) ∈ s.b.pend)
        simp only [phW, List.map_cons, List.sum_cons, calls] at this r1 ⊢
        omega
    | upd q =>
      simp only [Sched.step] at hb
      repeat' split at hb
      all_goals simp only [Option.some.injEq, Prod.mk.injEq, reduceCtorEq] at hb
      all_goals obtain ⟨rfl, rfl⟩ := hb
      have := sum_erase (fun x => phW x.2) (by assumption : (c, Ph.upd q) ∈ s.b.pend)
      simp only [State.updMin, phW, calls, Bool.false_eq_true, if_false] at this r1 ⊢
      omega
  | erase c =>
    simp only [Sched.step] at hb
    split at hb
    case h_2 => simp at hb
    rename_i g hg
    split at hb
    case isFalse => simp at hb
    rename_i he
    have hcL := hc c (by rw [hg]; simp)
    split at hb
    all_goals simp only [Option.some.injEq, Prod.mk.injEq] at hb
    all_goals obtain ⟨rfl, rfl⟩ := hb
    · have := sum_set (f := s.b.chg) (v := some { g with erased := true }) hL hcL
      simp only [hg, chgW, he.1, calls, Bool.false_eq_true, if_false, if_true] at this r1 ⊢
      omega
    · have := sum_set (f := s.b.chg) (v := none) hL hcL
      simp only [hg, chgW, he.1, calls, Bool.false_eq_true, if_false] at this r1 ⊢
      omega
  | push c =>
    simp only [Sched.step] at hb
    split at hb
    case h_2 => simp at hb
    rename_i g hg
    split at hb
    case isFalse => simp at hb
    rename_i he
    have hcL := hc c (by rw [hg]; simp)
    simp only [Option.some.injEq, Prod.mk.injEq] at hb
    obtain ⟨rfl, rfl⟩ := hb
    have := sum_set (f := s.b.chg) (v := none) hL hcL
    simp only [State.updMin, hg, chgW, he.1, calls, if_true] at this r1 ⊢
    omega
  | _ => simp [system] at hsys

theorem meas_step {p : Par} {s s' : State} {a : A} {es : List Ev} {L : List Nat} (hL : L.Nodup) (hc : ∀ c, s.b.chg c ≠ none → c ∈ L)
    (hsys : system a = true) (hs : step p s a = some (s', es)) : meas L s' < meas L s ∧ ∀ c, s'.b.chg c ≠ none → c ∈ L := by
  cases a with
  | base a self =>
    have hself : self = false := by cases a <;> simp_all [system]
    subst hself
    refine ⟨meas_base hL hc hsys hs, ?_⟩
    simp only [step] at hs
    split at hs
    case isFalse => simp at hs
    simp only [Option.map_eq_some_iff, Prod.mk.injEq] at hs
    obtain ⟨⟨b', fs⟩, hb, rfl, rfl⟩ := hs
    obtain ⟨_, hg⟩ := chg_step hb (by rintro rfl; simp [system] at hsys)
    intro c hcc
    apply hc
    simp only at hcc
    rcases hg with ⟨d, v, me, rfl, _⟩ | ⟨d, g', rfl, hd, he, hg | hg⟩ | ⟨d, g', rfl, hd, he, hg⟩ | hg
    · simp [system] at hsys
    all_goals simp only [hg, set_apply] at hcc; grind
  | go =>
    have hr := go_rank hs
    have hpf := pick_fields s.b
    have hx : s'.b.pend = s.b.pend ∧ s'.b.chg = s.b.chg ∧ s'.nots = s.nots ∧ s'.ipend = s.ipend ∧ s'.ext = s.ext := by
      simp only [step, go] at hs
      cases hpc : s.pc <;> simp only [hpc] at hs
      all_goals repeat' split at hs
      all_goals simp only [Option.some.injEq, Prod.mk.injEq, reduceCtorEq] at hs
      all_goals obtain ⟨rfl, rfl⟩ := hs
      all_goals simp [hpf]
    obtain ⟨h1, h2, h3, h4, h5⟩ := hx
    refine ⟨?_, by rw [h2]; exact hc⟩
    simp only [meas, h1, h2, h3, h4, h5]
    omega
  | itest =>
    simp only [step] at hs
    repeat' split at hs
    all_goals simp only [Option.some.injEq, Prod.mk.injEq, reduceCtorEq] at hs
    all_goals obtain ⟨rfl, rfl⟩ := hs
    all_goals refine ⟨?_, hc⟩
    all_goals simp only [meas, rank]
    all_goals omega
  | notLock =>
    simp only [step] at hs
    repeat' split at hs
    all_goals simp only [Option.some.injEq, Prod.mk.injEq, reduceCtorEq] at hs
    all_goals obtain ⟨rfl, rfl⟩ := hs
    rename_i h1
    refine ⟨?_, hc⟩
    simp only [meas, rank, h1.2.2, if_true, reduceCtorEq, if_false]
    omega
  | extRel =>
    simp only [step] at hs
    split at hs
    case h_3 => simp at hs
    all_goals
      rename_i he
      simp only [Option.some.injEq, Prod.mk.injEq] at hs
      obtain ⟨rfl, rfl⟩ := hs
      refine ⟨?_, hc⟩
    · have r1 := rank_lt { s with ext := none, pc := wakePc s.pc }
      simp only [meas, he, if_true, reduceCtorEq, if_false]
      omega
    · simp only [meas, rank, he, if_true, reduceCtorEq, if_false]
      omega
  | _ => simp [system] at hsys

theorem meas_runs {p : Par} {L : List Nat} (hL : L.Nodup) : ∀ (bs : List A) (s s' : State) (es : List Ev),
    (∀ c, s.b.chg c ≠ none → c ∈ L) → (∀ b ∈ bs, system b = true) → runs (step p) s bs = some (s', es) → bs.length ≤ meas L s
  | [], _, _, _, _, _, _ => by simp
  | b :: bs, s, s', es, hc, hb, h => by
    obtain ⟨s1, e1, e2, h1, h2, rfl⟩ := runs_cons h
    obtain ⟨k1, k2⟩ := meas_step hL hc (hb b List.mem_cons_self) h1
    have := meas_runs hL bs s1 s' e2 k2 (fun x hx => hb x (List.mem_cons_of_mem _ hx)) h2
    simp only [List.length_cons]
    omega

/-- **C86**, the thread does wake up (if no coroutine gives up the thread while it holds the schedule lock): from every reachable state the
library's steps under way come to an end, and when none is left, the thread runs user code, or it has ended because it was told to
stop, or it sleeps and nothing can run: no coroutine is runnable, it was not told to stop, the plain thread still waits. -/
theorem C86_wakes_up_partial {p : Par} (hp : p.held = false) {as : List A} {s : State} {tr : List Ev}
    (h : runs (step p) (State.init p) as = some (s, tr)) :
    (∃ n, ∀ bs s' es, (∀ b ∈ bs, system b = true) → runs (step p) s bs = some (s', es) → bs.length ≤ n) ∧
    ((∀ b, system b = true → step p s b = none) →
      s.pc = .user ∨ (s.pc = .gone ∧ Ev.stop ∈ tr) ∨
      (asleep tr = true ∧ (∀ c, ¬ (view (envEvs tr)).runnable c) ∧ Ev.stop ∉ tr ∧ (p.thr = false → idleWaits tr ≠ []))) := by
  have hI := i_runs h
  have hJ : J s := runs_inv (step := step p) J (fun s a s' es hI hs => j_step hI hs) as _ _ _ (j_init p) h
  obtain ⟨L, hL, hc⟩ := hJ.fin
  refine ⟨⟨meas L s, fun bs s' es hb hr => meas_runs hL bs s s' es hc hb hr⟩, ?_⟩
  intro hstuck
  by_cases hu : s.pc = .user
  · exact .inl hu
  right
  have hext : s.ext = none := by
    cases he : s.ext with
    | none => rfl
    | some b =>
      have := hstuck .extRel rfl
      cases b <;> simp [step, he] at this
  have hns : ∀ c g, s.b.chg c = some g → g.self = false := by
    intro c g hg
    cases hx : g.self with
    | false => rfl
    | true => exact absurd (hJ.self c g hg hx).2 hu
  have hmu : s.b.mu = none := by
    cases he : s.b.mu with
    | none => rfl
    | some c =>
      have h1 := hI.inv.mu c he
      cases hg : s.b.chg c with
      | none => simp [State.erased, hg] at h1
      | some g =>
        have hge : g.erased = true := by simpa [State.erased, hg] using h1
        have := hstuck (.base (.push c) false) rfl
        simp [step, State.allows, hg, hns c g hg, Sched.step, hge] at this
  have hchg : ∀ c, s.b.chg c = none := by
    intro c
    cases hg : s.b.chg c with
    | none => rfl
    | some g =>
      have hge : g.erased = false := by
        cases hx : g.erased with
        | false => rfl
        | true =>
          have h1 : s.b.erased c = true := by simp [State.erased, hg, hx]
          have := (hI.inv.eras c h1).2
          rw [hmu] at this; simp at this
      have := hstuck (.base (.erase c) false) rfl
      simp only [step, State.allows, hg, hns c g hg, Sched.step, hge, State.muFree, hmu] at this
      by_cases hm : c ∈ s.b.lists g.old <;> simp [hm, hns c g hg] at this
  have hpend : s.b.pend = [] := by
    cases hx : s.b.pend with
    | nil => rfl
    | cons x l =>
      obtain ⟨c, ph⟩ := x
      have hm : (c, ph) ∈ s.b.pend := by rw [hx]; exact List.mem_cons_self
      have := hstuck (.base (.wake c ph) false) rfl
      cases ph with
      | test =>
        simp only [step, State.allows, Sched.step, hm] at this
        by_cases h1 : s.b.dead c = true <;> by_cases h2 : (s.b.ctx c).waiting = true <;> simp [h1, h2] at this
      | read =>
        simp only [step, State.allows, Sched.step, hm, hchg c] at this
        by_cases h1 : s.b.dead c = true <;> simp [h1] at this
      | upd q => simp [step, State.allows, Sched.step, hm] at this
  have hip : s.ipend = 0 := by
    rcases Nat.eq_zero_or_pos s.ipend with h1 | h1
    · exact h1
    · have := hstuck .itest rfl
      simp only [step, h1, if_true] at this
      split at this <;> simp at this
  have hgo := hstuck .go rfl
  have hpo := hI.pco hp
  cases hpc : s.pc with
  | user => exact absurd hpc hu
  | gone => exact .inl ⟨rfl, hI.stp.1 (hJ.gone hpc)⟩
  | sw =>
    simp only [step, go, hpc, hmu, if_true] at hgo
    repeat' split at hgo
    all_goals simp at hgo
  | slp1 o => simp [step, go, hpc, hext] at hgo
  | nt1 o => simp [step, go, hpc, hext] at hgo
  | back => simp [step, go, hpc, hext] at hgo
  | nt2 => simp [step, go, hpc, hext] at hgo
  | top =>
    simp only [step, go, hpc, hext, if_true] at hgo
    split at hgo <;> simp at hgo
  | tst1 o =>
    simp only [step, go, hpc, hmu, if_true] at hgo
    split at hgo <;> simp at hgo
  | tst2 =>
    simp only [step, go, hpc, hmu, if_true] at hgo
    split at hgo <;> simp at hgo
  | zz1 o =>
    rw [hpc] at hpo
    have hn : s.nots = 0 := by
      rcases Nat.eq_zero_or_pos s.nots with h1 | h1
      · exact h1
      · have := hstuck .notLock rfl
        simp only at hpo
        simp [step, h1, hpo, hext] at this
    have hz : asleep tr = true := by rw [hI.zz, hpc]; rfl
    refine .inr ⟨hz, ?_⟩
    obtain ⟨k1, k2, k3⟩ := hI.key (by rw [hpc]; rfl) hn (by rw [hext]; simp)
    refine ⟨?_, ?_, ?_⟩
    · intro c hr
      obtain ⟨h1, h2⟩ := (runnable_iff hI.inv hI.agree c).1 hr
      obtain ⟨ph, h3⟩ := k1 c h1 h2
      rw [hpend] at h3; simp at h3
    · rw [← hI.stp, k2]; simp
    · intro ht he
      rcases k3 ht with h1 | h1
      · rw [hI.wait, ← hI.iw, he] at h1; simp at h1
      · omega
  | zz2 =>
    rw [hpc] at hpo
    have hn : s.nots = 0 := by
      rcases Nat.eq_zero_or_pos s.nots with h1 | h1
      · exact h1
      · have := hstuck .notLock rfl
        simp only at hpo
        simp [step, h1, hpo, hext] at this
    have hz : asleep tr = true := by rw [hI.zz, hpc]; rfl
    refine .inr ⟨hz, ?_⟩
    obtain ⟨k1, k2, k3⟩ := hI.key (by rw [hpc]; rfl) hn (by rw [hext]; simp)
    refine ⟨?_, ?_, ?_⟩
    · intro c hr
      obtain ⟨h1, h2⟩ := (runnable_iff hI.inv hI.agree c).1 hr
      obtain ⟨ph, h3⟩ := k1 c h1 h2
      rw [hpend] at h3; simp at h3
    · rw [← hI.stp, k2]; simp
    · intro ht he
      rcases k3 ht with h1 | h1
      · rw [hI.wait, ← hI.iw, he] at h1; simp at h1
      · omega

/-! ## Non-trivial cases -/

/-- Coroutine `c` is added by another thread, to the end, including the `wake_up`. (Concerns co_env.cpp:241-663.) -/
def added (c p : Nat) : List A := [.base (.add c ⟨p, .suspended, [], false, true, false, false⟩) false, .base (.wake c .read) false,
  .base (.wake c (.upd p)) false, .notLock, .extRel]

/-- Coroutine 1 waits for 7, the thread falls asleep; 7 happens, the waker tells the thread, and 1 runs again. -/
example : ∃ s tr, runs (step ⟨true, false, false⟩) (State.init ⟨true, false, false⟩) (added 1 5 ++ [.go, .go, .base (.enter 1 7) true, .yield, .go,
      .go, .go, .base (.leave 1 7) false, .base (.wake 1 .test) false, .base (.wake 1 .read) false, .base (.wake 1 (.upd 5)) false,
      .notLock, .extRel, .go, .go, .go, .go, .go, .go]) = some (s, tr) ∧ s.pc = .user ∧ s.b.curr = some 1 ∧
      tr.filter (fun e => e == .sleep || e == .up || e == .call || e == .ret) = [.call, .ret, .sleep, .call, .up, .ret] :=
  ⟨_, _, rfl, rfl, rfl, by decide⟩

/-- A plain thread sleeps until what it waits for happens. -/
example : ∃ s tr, runs (step ⟨false, false, false⟩) (State.init ⟨false, false, false⟩) ([.ienter 3, .yield, .go, .go, .go, .ileave 3, .itest,
      .notLock, .extRel, .go, .go]) = some (s, tr) ∧ s.pc = .user ∧
      tr.filter (fun e => e == .sleep || e == .up || e == .call || e == .ret) = [.sleep, .call, .up, .ret] :=
  ⟨_, _, rfl, rfl, by decide⟩

/-! ## What goes wrong: the schedule lock is held over a switch -/

/-- Proof device. -/
theorem stuck_step {p : Par} (hp : p.spur = false) {s s' : State} {a : A} {es : List Ev}
    (h : asleepPc s.pc = true ∧ 0 < s.own ∧ s.ext = none) (hs : step p s a = some (s', es)) :
    (asleepPc s'.pc = true ∧ 0 < s'.own ∧ s'.ext = none) ∧ Ev.up ∉ es ∧ Ev.ret ∉ es := by
  obtain ⟨h1, h2, h3⟩ := h
  have hnu : s.pc ≠ .user := by intro he; rw [he] at h1; simp [asleepPc] at h1
  cases a with
  | base a self =>
    simp only [step] at hs
    split at hs
    case isFalse => simp at hs
    simp only [Option.map_eq_some_iff, Prod.mk.injEq] at hs
    obtain ⟨⟨b', fs⟩, hb, rfl, rfl⟩ := hs
    exact ⟨⟨h1, h2, h3⟩, by simp, by simp⟩
  | go =>
    simp only [step, go] at hs
    cases hpc : s.pc <;> rw [hpc] at h1 hs <;> simp_all [asleepPc]
  | _ =>
    simp only [step] at hs
    repeat' split at hs
    all_goals simp only [Option.some.injEq, Prod.mk.injEq, reduceCtorEq] at hs
    all_goals obtain ⟨rfl, rfl⟩ := hs
    all_goals first
      | exact ⟨⟨h1, h2, h3⟩, by simp, by simp⟩
      | simp_all
      | omega

theorem asleep_keep {tr es : List Ev} (h : asleep tr = true) (hu : Ev.up ∉ es) : asleep (tr ++ es) = true := by
  rw [asleep_append, h]
  induction es with
  | nil => rfl
  | cons e es ih =>
    have h1 : e ≠ .up := by rintro rfl; simp at hu
    have h2 : noteSleep true e = true := by cases e <;> simp_all [noteSleep]
    rw [List.foldl_cons, h2]
    exact ih (by intro h3; exact hu (List.mem_cons_of_mem _ h3))

/-- **C86** fails when the thread falls asleep while it holds the schedule lock once more than `sleep_if_need__` releases: without spurious
wake-ups it never wakes again, whatever happens, and no `wake_up` call returns. -/
theorem C86_asleep_with_lock_forever {p : Par} (hp : p.spur = false) {as bs : List A} {s s' : State} {tr es : List Ev}
    (h : runs (step p) (State.init p) as = some (s, tr)) (hz : asleep tr = true) (hown : 0 < s.own)
    (h' : runs (step p) s bs = some (s', es)) : asleep (tr ++ es) = true ∧ Ev.ret ∉ es := by
  have hI := i_runs h
  have key := runs_hist (step := step p)
    (fun s es => (asleepPc s.pc = true ∧ 0 < s.own ∧ s.ext = none) ∧ Ev.up ∉ es ∧ Ev.ret ∉ es)
    (fun s a s' es tr hI hs => by
      have := stuck_step hp hI.1 hs
      refine ⟨this.1, ?_, ?_⟩
      · rw [List.mem_append]; rintro (h1 | h1)
        · exact hI.2.1 h1
        · exact this.2.1 h1
      · rw [List.mem_append]; rintro (h1 | h1)
        · exact hI.2.2 h1
        · exact this.2.2 h1)
    bs s s' es [] ⟨⟨by rw [← hI.zz]; exact hz, hown, hI.oe hown⟩, by simp, by simp⟩ h'
  rw [List.nil_append] at key
  exact ⟨asleep_keep hz key.2.1, key.2.2⟩

/-- It happens: a coroutine in the second half of a timed wait on a condition variable (co_condition_variable.h:111-113) holds the schedule
lock and finds the mutex taken; it waits for it, the thread falls asleep; the mutex is given to it, and the waker's `wake_up` and the
thread wait for each other for ever. -/
theorem C86_timed_wait_deadlock : ∃ as s tr, runs (step ⟨true, true, false⟩) (State.init ⟨true, true, false⟩) as = some (s, tr) ∧
    asleep tr = true ∧ (view (envEvs tr)).runnable 1 ∧ inFlight tr = 1 ∧
    ∀ bs s' es, runs (step ⟨true, true, false⟩) s bs = some (s', es) → asleep (tr ++ es) = true ∧ Ev.ret ∉ es := by
  have hrun : ∃ s tr, runs (step ⟨true, true, false⟩) (State.init ⟨true, true, false⟩) (added 1 5 ++ [.go, .go, .lock, .base (.enter 1 7) true,
      .yield, .go, .go, .go, .base (.leave 1 7) false, .base (.wake 1 .test) false, .base (.wake 1 .read) false,
      .base (.wake 1 (.upd 5)) false]) = some (s, tr) ∧ asleep tr = true ∧ (view (envEvs tr)).runnable 1 ∧ inFlight tr = 1 ∧ 0 < s.own :=
    ⟨_, _, rfl, rfl, ⟨rfl, rfl, rfl⟩, rfl, by decide⟩
  obtain ⟨s, tr, h1, h2, h3, h4, h5⟩ := hrun
  exact ⟨_, s, tr, h1, h2, h3, h4, fun bs s' es h => C86_asleep_with_lock_forever rfl h1 h2 h5 h⟩

end Verif.Sched.Idle
