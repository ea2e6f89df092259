import Verif.Sched.Env

/-! # Invariants of the scheduler machine (without preemption inside `handle_priority_changed`) -/

namespace Verif.Sched

@[simp, grind =] theorem set_same {α : Type} (f : Nat → α) (c : Nat) (v : α) : set f c v c = v := by simp [set]

@[simp, grind =] theorem set_other {α : Type} (f : Nat → α) {c d : Nat} (v : α) (h : d ≠ c) : set f c v d = f d := by simp [set, h]

@[grind =] theorem set_apply {α : Type} (f : Nat → α) (c d : Nat) (v : α) : set f c v d = if d = c then v else f d := rfl

/-- Proof device: the index of the list that holds `c`. (Concerns co_env.cpp:32-621, co_ctx.cpp:77-207.) -/
def State.lp (s : State) (c : Nat) : Nat :=
  match s.chg c with
  | some g => g.old
  | none => (s.ctx c).prio

/-- Proof device: `c` is between `erase` and `push_back`. (Concerns co_env.cpp:32-621, co_ctx.cpp:77-207.) -/
def State.erased (s : State) (c : Nat) : Bool :=
  match s.chg c with
  | some g => g.erased
  | none => false

/-- Proof device. (Concerns co_env.cpp:32-621, co_ctx.cpp:77-207.) -/
structure Inv (s : State) : Prop where
  one : ∀ p c, (s.lists p).count c = if s.mem c = true ∧ s.erased c = false ∧ p = s.lp c then 1 else 0
  eras : ∀ c, s.erased c = true → s.mem c = true ∧ s.mu = some c
  mu : ∀ c, s.mu = some c → s.erased c = true
  lt : ∀ c, s.mem c = true → (s.ctx c).prio < 100 ∧ s.lp c < 100
  num : ∃ l : List Nat, l.Nodup ∧ (∀ c, c ∈ l ↔ s.mem c = true) ∧ l.length = s.count
  wait : ∀ c, (s.ctx c).waiting = !(s.ctx c).res.isEmpty
  chg : ∀ c g, s.chg c = some g → s.mem c = true →
    (g.self = false ∧ (s.ctx c).locked = true) ∨ (g.self = true ∧ (s.ctx c).st ≠ .finished)
  curr : ∀ c, s.curr = some c → s.mem c = true ∧ (s.ctx c).st ≠ .suspended
  run : ∀ c, s.mem c = true → (s.ctx c).st = .running → s.curr = some c
  dead : ∀ c, s.dead c = true → s.mem c = false
  min : s.min < 100
  hint : ∀ c, s.mem c = true → (s.ctx c).canSchedule = true → s.chg c = none →
    s.min ≤ (s.ctx c).prio ∨ (c, Ph.test) ∈ s.pend ∨ (c, Ph.read) ∈ s.pend ∨ ∃ p, p ≤ (s.ctx c).prio ∧ (c, Ph.upd p) ∈ s.pend

theorem inv_init : Inv State.init := by
  constructor <;> simp [State.init, State.erased]

/-! ## The search -/

theorem findSome_range {f : Nat → Option (Nat × Nat)} : ∀ {n a : Nat} {r : Nat × Nat}, (List.range' a n).findSome? f = some r →
    ∃ i, a ≤ i ∧ i < a + n ∧ f i = some r ∧ ∀ j, a ≤ j → j < i → f j = none
  | 0, a, r, h => by simp at h
  | n + 1, a, r, h => by
    rw [List.range'_succ, List.findSome?_cons] at h
    cases hf : f a with
    | some x =>
      rw [hf] at h
      simp only [Option.some.injEq] at h
      exact ⟨a, Nat.le_refl _, by omega, by rw [hf, h], fun j h1 h2 => by omega⟩
    | none =>
      rw [hf] at h
      obtain ⟨i, h1, h2, h3, h4⟩ := findSome_range h
      refine ⟨i, by omega, by omega, h3, ?_⟩
      intro j h5 h6
      by_cases hj : j = a
      · rw [hj]; exact hf
      · exact h4 j (by omega) h6

theorem search_some {s : State} {i c : Nat} (h : s.search = some (i, c)) :
    s.min ≤ i ∧ i < max s.min 100 ∧ c ∈ s.lists i ∧ (s.ctx c).canSchedule = true ∧
    (∃ l1 l2, s.lists i = l1 ++ c :: l2 ∧ ∀ d ∈ l1, (s.ctx d).canSchedule = false) ∧
    ∀ j, s.min ≤ j → j < i → ∀ d ∈ s.lists j, (s.ctx d).canSchedule = false := by
  obtain ⟨k, h1, h2, h3, h4⟩ := findSome_range h
  simp only [Option.map_eq_some_iff, Prod.mk.injEq] at h3
  obtain ⟨d, h5, rfl, rfl⟩ := h3
  rw [List.find?_eq_some_iff_append] at h5
  obtain ⟨h6, l1, l2, h7, h8⟩ := h5
  refine ⟨h1, by simp only [maxPriority] at h2; omega, by rw [h7]; simp, h6, ⟨l1, l2, h7, fun d hd => by simpa using h8 d hd⟩, ?_⟩
  intro j h9 h10 e he
  have := h4 j h9 h10
  simp only [Option.map_eq_none_iff, List.find?_eq_none] at this
  simpa using this e he

theorem search_none {s : State} (h : s.search = none) : ∀ j, s.min ≤ j → j < 100 → ∀ d ∈ s.lists j, (s.ctx d).canSchedule = false := by
  intro j h1 h2 d hd
  simp only [State.search, List.findSome?_eq_none_iff, List.mem_range'_1, Option.map_eq_none_iff, List.find?_eq_none] at h
  simpa using h j ⟨h1, by simp only [maxPriority]; omega⟩ d hd

theorem Inv.mem_list {s : State} (h : Inv s) {p c : Nat} : c ∈ s.lists p ↔ s.mem c = true ∧ s.erased c = false ∧ p = s.lp c := by
  rw [← List.count_pos_iff, h.one]
  split
  · simp_all
  · simp_all

theorem suspend_other (f : Nat → Ctx) (o : Option Nat) (c : Nat) :
    (suspend f o c).prio = (f c).prio ∧ (suspend f o c).res = (f c).res ∧ (suspend f o c).waiting = (f c).waiting ∧
    (suspend f o c).locked = (f c).locked ∧ (suspend f o c).bind = (f c).bind ∧ (suspend f o c).shared = (f c).shared ∧
    ((suspend f o c).st = .finished ↔ (f c).st = .finished) ∧
    (suspend f o c).canSchedule = (f c).canSchedule ∧ ((suspend f o c).st = .running → (f c).st = .running ∧ o ≠ some c) := by
  cases o with
  | none => simp [suspend]
  | some d =>
    simp only [suspend]
    by_cases h : c = d
    · subst h
      simp only [set_same]
      cases hst : (f c).st <;> simp [Ctx.canSchedule, hst] <;> rfl
    · simp [set_other _ _ h]
      intro h1
      exact ⟨h1, fun h2 => h h2.symm⟩

/-- What `prepare_to_switch` leaves alone. -/
theorem pick_fields (s : State) : s.pick.1.mem = s.mem ∧ s.pick.1.dead = s.dead ∧ s.pick.1.count = s.count ∧ s.pick.1.chg = s.chg ∧
    s.pick.1.mu = s.mu ∧ s.pick.1.pend = s.pend ∧ s.pick.1.curr = s.pick.2 := by
  simp only [State.pick]
  split <;> simp

theorem pick_ctx {s : State} (c : Nat) :
    (s.pick.1.ctx c).prio = (s.ctx c).prio ∧ (s.pick.1.ctx c).res = (s.ctx c).res ∧ (s.pick.1.ctx c).waiting = (s.ctx c).waiting ∧
    (s.pick.1.ctx c).locked = (s.ctx c).locked ∧ (s.pick.1.ctx c).bind = (s.ctx c).bind ∧
    (s.pick.1.ctx c).shared = (s.ctx c).shared ∧ ((s.pick.1.ctx c).st = .finished ↔ (s.ctx c).st = .finished) ∧
    (s.pick.1.ctx c).canSchedule = (s.ctx c).canSchedule := by
  have h := suspend_other s.ctx s.curr c
  cases hs : s.search with
  | none =>
    simp only [State.pick, hs]
    split
    · simp
    · exact ⟨h.1, h.2.1, h.2.2.1, h.2.2.2.1, h.2.2.2.2.1, h.2.2.2.2.2.1, h.2.2.2.2.2.2.1, h.2.2.2.2.2.2.2.1⟩
  | some r =>
    obtain ⟨i, d⟩ := r
    have hd := (search_some hs).2.2.2.1
    simp only [State.pick, hs]
    split
    · simp
    · by_cases hc : c = d
      · subst hc
        simp only [set_same]
        have : (s.ctx c).st ≠ .finished := by
          intro he; simp [Ctx.canSchedule, he] at hd
        refine ⟨h.1, h.2.1, h.2.2.1, h.2.2.2.1, h.2.2.2.2.1, h.2.2.2.2.2.1, by simp [this], ?_⟩
        rw [hd]
        rw [hd] at h
        have h8 := h.2.2.2.2.2.2.2.1
        simp only [Ctx.canSchedule] at h8 ⊢
        simp_all
      · simp only [set_other _ _ hc]
        exact ⟨h.1, h.2.1, h.2.2.1, h.2.2.2.1, h.2.2.2.2.1, h.2.2.2.2.2.1, h.2.2.2.2.2.2.1, h.2.2.2.2.2.2.2.1⟩

theorem pick_lists {s : State} (p c : Nat) : (s.pick.1.lists p).count c = (s.lists p).count c ∨
    (∃ i d, s.search = some (i, d) ∧ p = i ∧ c = d ∧ (s.pick.1.lists p).count c = 1 ∧ 1 ≤ (s.lists p).count c) := by
  cases hs : s.search with
  | none => left; simp [State.pick, hs]
  | some r =>
    obtain ⟨i, d⟩ := r
    simp only [State.pick, hs]
    by_cases hp : p = i
    · subst hp
      simp only [set_same]
      by_cases hc : c = d
      · subst hc
        right
        refine ⟨p, c, rfl, rfl, rfl, ?_, ?_⟩
        · rw [List.count_append, List.count_eq_zero_of_not_mem (by simp)]; simp
        · exact List.count_pos_iff.2 (search_some hs).2.2.1
      · left
        rw [List.count_append, List.count_filter (by simpa using hc)]
        simp [List.count_cons, Ne.symm hc]
    · left; simp [set_other _ _ hp]

theorem inv_pick {s : State} (h : Inv s) : Inv s.pick.1 := by
  obtain ⟨f1, f2, f3, f4, f5, f6, f7⟩ := pick_fields s
  have fc := fun c => pick_ctx (s := s) c
  have her : ∀ c, s.pick.1.erased c = s.erased c := fun c => by simp [State.erased, f4]
  have hlp : ∀ c, s.pick.1.lp c = s.lp c := fun c => by simp [State.lp, f4, (fc c).1]
  refine ⟨?_, ?_, ?_, ?_, ?_, ?_, ?_, ?_, ?_, ?_, ?_, ?_⟩
  · intro p c
    rw [f1, her, hlp]
    rcases pick_lists (s := s) p c with h1 | ⟨i, d, h1, h2, h3, h4, h5⟩
    · rw [h1, h.one]
    · rw [h4]
      rw [h.one] at h5
      split
      · rfl
      · rename_i hn; rw [if_neg hn] at h5; omega
  · intro c hc; rw [her] at hc; rw [f1, f5]; exact h.eras c hc
  · intro c hc; rw [f5] at hc; rw [her]; exact h.mu c hc
  · intro c hc; rw [f1] at hc; rw [(fc c).1, hlp]; exact h.lt c hc
  · obtain ⟨l, h1, h2, h3⟩ := h.num
    exact ⟨l, h1, fun c => by rw [f1]; exact h2 c, by rw [f3]; exact h3⟩
  · intro c; rw [(fc c).2.1, (fc c).2.2.1]; exact h.wait c
  · intro c g hg hc
    rw [f4] at hg; rw [f1] at hc
    rw [(fc c).2.2.2.1]
    have := h.chg c g hg hc
    rcases this with h1 | ⟨h1, h2⟩
    · exact .inl h1
    · exact .inr ⟨h1, fun he => h2 ((fc c).2.2.2.2.2.2.1.1 he)⟩
  · intro c hc
    rw [f7] at hc
    rw [f1]
    cases hs : s.search with
    | none => simp [State.pick, hs] at hc
    | some r =>
      obtain ⟨i, d⟩ := r
      simp only [State.pick, hs, Option.some.injEq] at hc
      subst hc
      refine ⟨(h.mem_list.1 (search_some hs).2.2.1).1, ?_⟩
      simp only [State.pick, hs]
      split
      · rename_i he; exact (h.curr d he).2
      · simp
  · intro c hc hr
    rw [f1] at hc; rw [f7]
    cases hs : s.search with
    | none =>
      simp only [State.pick, hs] at hr ⊢
      exfalso
      split at hr
      · rename_i hcn; have := h.run c hc hr; rw [hcn] at this; simp at this
      · have := (suspend_other s.ctx s.curr c).2.2.2.2.2.2.2.2 hr
        exact this.2 (h.run c hc this.1)
    | some r =>
      obtain ⟨i, d⟩ := r
      simp only [State.pick, hs] at hr ⊢
      split at hr
      · rename_i he; rw [← he]; exact h.run c hc hr
      · by_cases hcd : c = d
        · rw [hcd]
        · rw [set_other _ _ hcd] at hr
          have := (suspend_other s.ctx s.curr c).2.2.2.2.2.2.2.2 hr
          exact absurd (h.run c hc this.1) this.2
  · intro c hc; rw [f2] at hc; rw [f1]; exact h.dead c hc
  · cases hs : s.search with
    | none => simp only [State.pick, hs]; exact h.min
    | some r =>
      obtain ⟨i, d⟩ := r
      have := (search_some hs).2.1
      have := h.min
      simp only [State.pick, hs]; omega
  · intro c hc hsch hg
    rw [f1] at hc; rw [f4] at hg; rw [(fc c).2.2.2.2.2.2.2] at hsch
    rw [f6, (fc c).1]
    rcases h.hint c hc hsch hg with h1 | h1
    · left
      cases hs : s.search with
      | none => simp only [State.pick, hs]; exact h1
      | some r =>
        obtain ⟨i, d⟩ := r
        simp only [State.pick, hs]
        have hlt := (h.lt c hc).1
        by_cases hle : i ≤ (s.ctx c).prio
        · exact hle
        · exfalso
          have hm : c ∈ s.lists (s.ctx c).prio := h.mem_list.2 ⟨hc, by simp [State.erased, hg], by simp [State.lp, hg]⟩
          have := (search_some hs).2.2.2.2.2 _ h1 (by omega) c hm
          rw [hsch] at this
          simp at this
    · exact .inr h1

/-! ## The other steps -/

theorem mem_movable {s : State} (h : Inv s) {c : Nat} : c ∈ s.movable ↔
    s.mem c = true ∧ s.erased c = false ∧ (s.ctx c).canMove = true ∧ s.min ≤ s.lp c := by
  have := h.min
  simp only [State.movable, List.mem_flatMap, List.mem_range'_1, List.mem_filter, h.mem_list, maxPriority]
  constructor
  · rintro ⟨i, ⟨h1, h2⟩, ⟨h3, h4, rfl⟩, h5⟩; exact ⟨h3, h4, h5, h1⟩
  · rintro ⟨h1, h2, h3, h4⟩
    have := (h.lt c h1).2
    exact ⟨s.lp c, ⟨h4, by omega⟩, ⟨h1, h2, rfl⟩, h3⟩

theorem list_nodup {s : State} (h : Inv s) (p : Nat) : (s.lists p).Nodup := by
  rw [List.nodup_iff_count]
  intro c
  rw [h.one]
  split <;> omega

theorem nodup_flatMap {f : Nat → List Nat} (hf : ∀ i, (f i).Nodup) (hd : ∀ i j, i ≠ j → ∀ c ∈ f i, c ∉ f j) :
    ∀ {l : List Nat}, l.Nodup → (l.flatMap f).Nodup
  | [], _ => by simp
  | a :: l, h => by
    rw [List.nodup_cons] at h
    rw [List.flatMap_cons, List.nodup_append]
    refine ⟨hf a, nodup_flatMap hf hd h.2, ?_⟩
    intro x hx y hy hxy
    subst hxy
    obtain ⟨j, hj, hy⟩ := List.mem_flatMap.1 hy
    exact hd a j (by rintro rfl; exact h.1 hj) x hx hy

theorem movable_nodup {s : State} (h : Inv s) : s.movable.Nodup := by
  refine nodup_flatMap (fun i => (list_nodup h i).filter _) ?_ (List.nodup_range')
  intro i j hij c hc hc'
  have h1 := (h.mem_list.1 (List.mem_filter.1 hc).1).2.2
  have h2 := (h.mem_list.1 (List.mem_filter.1 hc').1).2.2
  exact hij (h1.trans h2.symm)

theorem firstMovable_some {s : State} {i c : Nat} (h : s.firstMovable = some (i, c)) :
    s.min ≤ i ∧ c ∈ s.lists i ∧ (s.ctx c).canMove = true := by
  obtain ⟨k, h1, h2, h3, h4⟩ := findSome_range h
  simp only [Option.map_eq_some_iff, Prod.mk.injEq] at h3
  obtain ⟨d, h5, rfl, rfl⟩ := h3
  exact ⟨h1, List.mem_of_find?_eq_some h5, List.find?_some (p := fun c => (s.ctx c).canMove) h5⟩

theorem filter_add (l : List Nat) (f : Nat → Bool) : (l.filter f).length + (l.filter fun c => !f c).length = l.length := by
  induction l with
  | nil => rfl
  | cons a l ih => cases h : f a <;> simp [h] <;> omega

theorem erased_eq {s t : State} {d : Nat} (h : t.chg d = s.chg d) : t.erased d = s.erased d := by
  simp only [State.erased, h]

theorem lp_eq {s t : State} {d : Nat} (h : t.chg d = s.chg d) (hp : (t.ctx d).prio = (s.ctx d).prio) : t.lp d = s.lp d := by
  simp only [State.lp, h, hp]

theorem erased_none {s : State} {d : Nat} (h : s.chg d = none) : s.erased d = false := by simp [State.erased, h]

theorem lp_none {s : State} {d : Nat} (h : s.chg d = none) : s.lp d = (s.ctx d).prio := by simp [State.lp, h]

/-- Removing a set of coroutines from a nodup enumeration. -/
theorem num_diff {l m : List Nat} (hl : l.Nodup) (hm : m.Nodup) (hsub : ∀ c ∈ m, c ∈ l) :
    (l.filter fun c => !decide (c ∈ m)).length = l.length - m.length := by
  have h1 : (l.filter fun c => decide (c ∈ m)).length = m.length := by
    apply List.Perm.length_eq
    rw [List.perm_ext_iff_of_nodup (hl.filter _) hm]
    intro c
    simp only [List.mem_filter, decide_eq_true_eq]
    exact ⟨fun h => h.2, fun h => ⟨hsub c h, h⟩⟩
  have h2 := filter_add l fun c => decide (c ∈ m)
  omega

theorem inv_step {s s' : State} {a : Act} {es : List Ev} (h : Inv s) (hs : step false s a = some (s', es)) : Inv s' := by
  have hmin := h.min
  cases a with
  | add c v =>
    simp only [step, State.muFree, Bool.or_false, beq_iff_eq] at hs
    split at hs
    · rename_i hc
      obtain ⟨hmu, hm, hd, hg, hst, hp, hw⟩ := hc
      simp only [Option.some.injEq, Prod.mk.injEq] at hs
      obtain ⟨rfl, rfl⟩ := hs
      have her : ∀ d, s.erased d = false := fun d => by
        cases he : s.erased d with
        | false => rfl
        | true => have := (h.eras d he).2; rw [hmu] at this; simp at this
      have hz : ∀ p, (s.lists p).count c = 0 := fun p => by rw [h.one]; simp [hm]
      refine ⟨?_, ?_, ?_, ?_, ?_, ?_, ?_, ?_, ?_, ?_, hmin, ?_⟩
      · intro p d
        by_cases hdc : d = c
        · subst hdc
          rw [erased_none (by exact hg), lp_none (by exact hg)]
          by_cases hpp : p = v.prio
          · subst hpp; simp [hz]
          · simp [hpp, hz]
        · rw [erased_eq (s := s) (by rfl), lp_eq (s := s) (by rfl) (by simp [hdc])]
          simp only [set_apply, hdc, if_false]
          rw [← h.one p d]
          by_cases hpp : p = v.prio
          · subst hpp
            simp [List.count_append, Ne.symm hdc]
          · simp [hpp]
      · intro d hd'; have : s.erased d = true := hd'; rw [her] at this; simp at this
      · intro d hd'; have : s.mu = some d := hd'; rw [hmu] at this; simp at this
      · intro d hd'
        simp only [State.lp, set_apply, maxPriority] at *
        by_cases hdc : d = c
        · simp only [hdc, if_true, hg]; omega
        · simp only [hdc, if_false] at hd' ⊢
          exact h.lt d hd'
      · obtain ⟨l, h1, h2, h3⟩ := h.num
        refine ⟨c :: l, ?_, ?_, by simp [h3]⟩
        · rw [List.nodup_cons]; exact ⟨fun hc => by rw [h2, hm] at hc; simp at hc, h1⟩
        · intro d
          simp only [List.mem_cons, h2, set_apply]
          by_cases hdc : d = c <;> simp [hdc]
      · intro d
        simp only [set_apply]
        by_cases hdc : d = c
        · simp [hdc, hw]
        · simp only [hdc, if_false]; exact h.wait d
      · intro d g hg' hd'
        have hg' : s.chg d = some g := hg'
        by_cases hdc : d = c
        · rw [hdc, hg] at hg'; simp at hg'
        · simp only [set_apply, hdc, if_false] at hd' ⊢; exact h.chg d g hg' hd'
      · intro d hd'
        have := h.curr d hd'
        have hdc : d ≠ c := by rintro rfl; rw [hm] at this; simp at this
        simpa [set_apply, hdc] using this
      · intro d hd' hr
        by_cases hdc : d = c
        · simp [set_apply, hdc, hst] at hr
        · simp only [set_apply, hdc, if_false] at hd' hr
          exact h.run d hd' hr
      · intro d hd'
        have hdc : d ≠ c := by rintro rfl; have : s.dead d = true := hd'; rw [hd] at this; simp at this
        simp only [set_apply, hdc, if_false]; exact h.dead d hd'
      · intro d hd' hsch hg'
        by_cases hdc : d = c
        · subst hdc; right; right; left; simp
        · simp only [set_apply, hdc, if_false] at hd' hsch hg' ⊢
          rcases h.hint d hd' hsch hg' with h1 | h1 | h1 | ⟨p, h1, h2⟩
          · exact .inl h1
          · exact .inr (.inl (List.mem_cons_of_mem _ h1))
          · exact .inr (.inr (.inl (List.mem_cons_of_mem _ h1)))
          · exact .inr (.inr (.inr ⟨p, h1, List.mem_cons_of_mem _ h2⟩))
    · simp at hs
  | enter c r =>
    simp only [step] at hs
    split at hs
    · rename_i hc
      simp only [Option.some.injEq, Prod.mk.injEq] at hs
      obtain ⟨rfl, rfl⟩ := hs
      have hp : ∀ d, (set s.ctx c ((s.ctx c).enter r) d).prio = (s.ctx d).prio ∧
          (set s.ctx c ((s.ctx c).enter r) d).st = (s.ctx d).st ∧ (set s.ctx c ((s.ctx c).enter r) d).locked = (s.ctx d).locked := by
        intro d; by_cases hdc : d = c <;> simp [set_apply, hdc, Ctx.enter]
      refine ⟨?_, h.eras, h.mu, ?_, h.num, ?_, ?_, ?_, ?_, h.dead, hmin, ?_⟩
      · intro p d
        have := h.one p d
        simp only [State.erased, State.lp, (hp d).1] at *
        exact this
      · intro d hd
        have := h.lt d hd
        simp only [State.lp, (hp d).1] at *
        exact this
      · intro d
        by_cases hdc : d = c
        · subst hdc
          simp only [set_same, Ctx.enter]
          by_cases hr : r ∈ (s.ctx d).res
          · simp only [hr, if_true]
            cases hres : (s.ctx d).res with
            | nil => rw [hres] at hr; simp at hr
            | cons => simp
          · simp [hr]
        · simp only [set_apply, hdc, if_false]; exact h.wait d
      · intro d g hg hd; simp only [(hp d).2.1, (hp d).2.2]; exact h.chg d g hg hd
      · intro d hd; simp only [(hp d).2.1]; exact h.curr d hd
      · intro d hd hr; simp only [(hp d).2.1] at hr; exact h.run d hd hr
      · intro d hd hsch hg
        by_cases hdc : d = c
        · simp [set_apply, hdc, Ctx.enter, Ctx.canSchedule] at hsch
        · simp only [set_apply, hdc, if_false] at hsch ⊢; exact h.hint d hd hsch hg
    · simp at hs
  | leave c r =>
    simp only [step] at hs
    split at hs
    · rename_i hc
      simp only [Option.some.injEq, Prod.mk.injEq] at hs
      obtain ⟨rfl, rfl⟩ := hs
      have hp : ∀ d, (set s.ctx c ((s.ctx c).leave r) d).prio = (s.ctx d).prio ∧
          (set s.ctx c ((s.ctx c).leave r) d).st = (s.ctx d).st ∧ (set s.ctx c ((s.ctx c).leave r) d).locked = (s.ctx d).locked := by
        intro d; by_cases hdc : d = c <;> simp [set_apply, hdc, Ctx.leave]
      refine ⟨?_, h.eras, h.mu, ?_, h.num, ?_, ?_, ?_, ?_, h.dead, hmin, ?_⟩
      · intro p d
        have := h.one p d
        simp only [State.erased, State.lp, (hp d).1] at *
        exact this
      · intro d hd
        have := h.lt d hd
        simp only [State.lp, (hp d).1] at *
        exact this
      · intro d
        by_cases hdc : d = c
        · subst hdc
          have hw := h.wait d
          simp only [set_same, Ctx.leave]
          cases hf : (s.ctx d).res.filter (· ≠ r) with
          | nil => simp
          | cons x l =>
            simp only [reduceCtorEq, if_false, List.isEmpty_cons]
            rw [hw]
            cases hres : (s.ctx d).res with
            | nil => rw [hres] at hf; simp at hf
            | cons => simp
        · simp only [set_apply, hdc, if_false]; exact h.wait d
      · intro d g hg hd; simp only [(hp d).2.1, (hp d).2.2]; exact h.chg d g hg hd
      · intro d hd; simp only [(hp d).2.1]; exact h.curr d hd
      · intro d hd hr; simp only [(hp d).2.1] at hr; exact h.run d hd hr
      · intro d hd hsch hg
        by_cases hdc : d = c
        · subst hdc; right; left; simp
        · simp only [set_apply, hdc, if_false] at hsch ⊢
          rcases h.hint d hd hsch hg with h1 | h1 | h1 | ⟨p, h1, h2⟩
          · exact .inl h1
          · exact .inr (.inl (List.mem_cons_of_mem _ h1))
          · exact .inr (.inr (.inl (List.mem_cons_of_mem _ h1)))
          · exact .inr (.inr (.inr ⟨p, h1, List.mem_cons_of_mem _ h2⟩))
    · simp at hs
  | wake c ph =>
    simp only [step] at hs
    split at hs
    · rename_i hmem
      -- changes of `pend` and a smaller `min`
      have key : ∀ (m : Nat) (pd : List (Nat × Ph)), m ≤ s.min →
          (∀ d, s.mem d = true → (s.ctx d).canSchedule = true → s.chg d = none → m ≤ (s.ctx d).prio ∨ (d, Ph.test) ∈ pd ∨
            (d, Ph.read) ∈ pd ∨ ∃ p, p ≤ (s.ctx d).prio ∧ (d, Ph.upd p) ∈ pd) →
          Inv { s with min := m, pend := pd } := by
        intro m pd hm hh
        exact ⟨h.one, h.eras, h.mu, h.lt, h.num, h.wait, h.chg, h.curr, h.run, h.dead, by show m < 100; omega, hh⟩
      have hold : ∀ (d : Nat) (q : Ph), (d, q) ∈ s.pend → (d, q) ≠ (c, ph) → (d, q) ∈ s.pend.erase (c, ph) :=
        fun d q h1 h2 => (List.mem_erase_of_ne h2).2 h1
      cases ph with
      | test =>
        simp only at hs
        split at hs
        · rename_i hdead
          simp only [Option.some.injEq, Prod.mk.injEq] at hs
          obtain ⟨rfl, rfl⟩ := hs
          refine key s.min _ (Nat.le_refl _) ?_
          intro d hd hsch hg
          have hdc : d ≠ c := by rintro rfl; rw [h.dead d hdead] at hd; simp at hd
          rcases h.hint d hd hsch hg with h1 | h1 | h1 | ⟨p, h1, h2⟩
          · exact .inl h1
          · exact .inr (.inl (hold _ _ h1 (by simp [hdc])))
          · exact .inr (.inr (.inl (hold _ _ h1 (by simp))))
          · exact .inr (.inr (.inr ⟨p, h1, hold _ _ h2 (by simp)⟩))
        · split at hs
          · rename_i hw
            simp only [Option.some.injEq, Prod.mk.injEq] at hs
            obtain ⟨rfl, rfl⟩ := hs
            refine key s.min _ (Nat.le_refl _) ?_
            intro d hd hsch hg
            have hdc : d ≠ c := by rintro rfl; simp [Ctx.canSchedule, hw] at hsch
            rcases h.hint d hd hsch hg with h1 | h1 | h1 | ⟨p, h1, h2⟩
            · exact .inl h1
            · exact .inr (.inl (hold _ _ h1 (by simp [hdc])))
            · exact .inr (.inr (.inl (hold _ _ h1 (by simp))))
            · exact .inr (.inr (.inr ⟨p, h1, hold _ _ h2 (by simp)⟩))
          · simp only [Option.some.injEq, Prod.mk.injEq] at hs
            obtain ⟨rfl, rfl⟩ := hs
            refine key s.min _ (Nat.le_refl _) ?_
            intro d hd hsch hg
            rcases h.hint d hd hsch hg with h1 | h1 | h1 | ⟨p, h1, h2⟩
            · exact .inl h1
            · by_cases hdc : d = c
              · subst hdc; right; right; left; simp
              · exact .inr (.inl (List.mem_cons_of_mem _ (hold _ _ h1 (by simp [hdc]))))
            · exact .inr (.inr (.inl (List.mem_cons_of_mem _ (hold _ _ h1 (by simp)))))
            · exact .inr (.inr (.inr ⟨p, h1, List.mem_cons_of_mem _ (hold _ _ h2 (by simp))⟩))
      | read =>
        simp only at hs
        split at hs
        · rename_i hdead
          simp only [Option.some.injEq, Prod.mk.injEq] at hs
          obtain ⟨rfl, rfl⟩ := hs
          refine key s.min _ (Nat.le_refl _) ?_
          intro d hd hsch hg
          have hdc : d ≠ c := by rintro rfl; rw [h.dead d hdead] at hd; simp at hd
          rcases h.hint d hd hsch hg with h1 | h1 | h1 | ⟨p, h1, h2⟩
          · exact .inl h1
          · exact .inr (.inl (hold _ _ h1 (by simp)))
          · exact .inr (.inr (.inl (hold _ _ h1 (by simp [hdc]))))
          · exact .inr (.inr (.inr ⟨p, h1, hold _ _ h2 (by simp)⟩))
        · simp only [Option.some.injEq, Prod.mk.injEq] at hs
          obtain ⟨rfl, rfl⟩ := hs
          refine key s.min _ (Nat.le_refl _) ?_
          intro d hd hsch hg
          rcases h.hint d hd hsch hg with h1 | h1 | h1 | ⟨p, h1, h2⟩
          · exact .inl h1
          · exact .inr (.inl (List.mem_cons_of_mem _ (hold _ _ h1 (by simp))))
          · by_cases hdc : d = c
            · subst hdc; right; right; right; exact ⟨(s.ctx d).prio, Nat.le_refl _, by simp⟩
            · exact .inr (.inr (.inl (List.mem_cons_of_mem _ (hold _ _ h1 (by simp [hdc])))))
          · exact .inr (.inr (.inr ⟨p, h1, List.mem_cons_of_mem _ (hold _ _ h2 (by simp))⟩))
      | upd q =>
        simp only [Option.some.injEq, Prod.mk.injEq] at hs
        obtain ⟨rfl, rfl⟩ := hs
        refine key (if q < s.min then q else s.min) _ (by split <;> omega) ?_
        intro d hd hsch hg
        rcases h.hint d hd hsch hg with h1 | h1 | h1 | ⟨p, h1, h2⟩
        · left; split <;> omega
        · exact .inr (.inl (hold _ _ h1 (by simp)))
        · exact .inr (.inr (.inl (hold _ _ h1 (by simp))))
        · by_cases hdc : (d, Ph.upd p) = (c, Ph.upd q)
          · simp only [Prod.mk.injEq, Ph.upd.injEq] at hdc
            left; split <;> omega
          · exact .inr (.inr (.inr ⟨p, h1, hold _ _ h2 hdc⟩))
    · simp at hs
  | setPrio c v self =>
    simp only [step] at hs
    split at hs
    · rename_i hc
      obtain ⟨hm, hg, hwho⟩ := hc
      have hcl : clamp v < 100 := by simp only [clamp]; split; · omega
                                     split <;> omega
      split at hs
      · rename_i heq
        simp only [Option.some.injEq, Prod.mk.injEq] at hs
        obtain ⟨rfl, rfl⟩ := hs
        have : set s.ctx c { s.ctx c with prio := clamp v } = s.ctx := by
          funext d
          by_cases hdc : d = c
          · subst hdc; simp [← heq]
          · simp [hdc]
        rw [this]
        exact h
      · rename_i hne
        simp only [Option.some.injEq, Prod.mk.injEq] at hs
        obtain ⟨rfl, rfl⟩ := hs
        have hp : ∀ d, (set s.ctx c { s.ctx c with prio := clamp v } d).res = (s.ctx d).res ∧
            (set s.ctx c { s.ctx c with prio := clamp v } d).waiting = (s.ctx d).waiting ∧
            (set s.ctx c { s.ctx c with prio := clamp v } d).st = (s.ctx d).st ∧
            (set s.ctx c { s.ctx c with prio := clamp v } d).locked = (s.ctx d).locked := by
          intro d; by_cases hdc : d = c <;> simp [set_apply, hdc]
        have her : ∀ (t : State) d, t.chg = set s.chg c (some ⟨(s.ctx c).prio, false, self⟩) → t.erased d = s.erased d := by
          intro t d ht
          by_cases hdc : d = c
          · subst hdc; rw [erased_none hg]; simp [State.erased, ht]
          · exact erased_eq (by simp [ht, hdc])
        have hlp : ∀ (t : State) d, t.chg = set s.chg c (some ⟨(s.ctx c).prio, false, self⟩) →
            t.ctx = set s.ctx c { s.ctx c with prio := clamp v } → t.lp d = s.lp d := by
          intro t d ht ht'
          by_cases hdc : d = c
          · subst hdc; rw [lp_none hg]; simp [State.lp, ht]
          · exact lp_eq (by simp [ht, hdc]) (by simp [ht', hdc])
        refine ⟨?_, ?_, ?_, ?_, h.num, ?_, ?_, ?_, ?_, h.dead, hmin, ?_⟩
        · intro p d; rw [her _ d rfl, hlp _ d rfl rfl]; exact h.one p d
        · intro d hd; rw [her _ d rfl] at hd; exact h.eras d hd
        · intro d hd; rw [her _ d rfl]; exact h.mu d hd
        · intro d hd
          rw [hlp _ d rfl rfl]
          have := h.lt d hd
          refine ⟨?_, this.2⟩
          by_cases hdc : d = c
          · simp [set_apply, hdc, hcl]
          · simp only [set_apply, hdc, if_false]; exact this.1
        · intro d; simp only [(hp d).1, (hp d).2.1]; exact h.wait d
        · intro d g hg' hd
          simp only [(hp d).2.2.1, (hp d).2.2.2]
          by_cases hdc : d = c
          · subst hdc
            simp only [set_same, Option.some.injEq] at hg'
            subst hg'
            rcases hwho with ⟨h1, _, h2⟩ | h1
            · exact .inr ⟨h1, h2⟩
            · exact .inl h1
          · simp only [set_apply, hdc, if_false] at hg'; exact h.chg d g hg' hd
        · intro d hd; simp only [(hp d).2.2.1]; exact h.curr d hd
        · intro d hd hr; simp only [(hp d).2.2.1] at hr; exact h.run d hd hr
        · intro d hd hsch hg'
          by_cases hdc : d = c
          · subst hdc; simp at hg'
          · simp only [set_apply, hdc, if_false] at hsch hg' ⊢; exact h.hint d hd hsch hg'
    · simp at hs
  | erase c =>
    simp only [step] at hs
    split at hs
    · rename_i g hg
      split at hs
      · rename_i hc
        obtain ⟨he, hmu, hself⟩ := hc
        simp only [State.muFree, Bool.or_false, beq_iff_eq] at hmu
        have her : ∀ d, s.erased d = false := fun d => by
          cases he : s.erased d with
          | false => rfl
          | true => have := (h.eras d he).2; rw [hmu] at this; simp at this
        split at hs
        · rename_i hin
          simp only [Option.some.injEq, Prod.mk.injEq] at hs
          obtain ⟨rfl, rfl⟩ := hs
          have hm := h.mem_list.1 hin
          refine ⟨?_, ?_, ?_, ?_, h.num, h.wait, ?_, h.curr, h.run, h.dead, hmin, ?_⟩
          · intro p d
            have := h.one p d
            by_cases hdc : d = c
            · subst hdc
              have hlp : s.lp d = g.old := by simp [State.lp, hg]
              by_cases hp : p = g.old
              · subst hp
                simp only [State.erased, set_same]
                rw [List.count_erase_self, h.one, if_pos ⟨hm.1, her d, hlp.symm⟩]
                simp
              · have : (s.lists p).count d = 0 := by rw [h.one, hlp]; simp [hp]
                simp [State.erased, set_apply, hp, this]
            · rw [erased_eq (s := s) (by simp [hdc]), lp_eq (s := s) (by simp [hdc]) (by rfl), ← this]
              by_cases hp : p = g.old
              · subst hp; simp only [set_same]; exact List.count_erase_of_ne hdc
              · simp only [set_apply, hp, if_false]
          · intro d hd
            by_cases hdc : d = c
            · subst hdc; exact ⟨hm.1, rfl⟩
            · have : s.erased d = true := by simpa [State.erased, set_apply, hdc] using hd
              rw [her] at this; simp at this
          · intro d hd
            have hd : some c = some d := hd
            simp only [Option.some.injEq] at hd
            subst hd
            simp [State.erased]
          · intro d hd
            have := h.lt d hd
            refine ⟨this.1, ?_⟩
            by_cases hdc : d = c
            · subst hdc
              simp only [State.lp, set_same]
              simpa [State.lp, hg] using this.2
            · simpa [State.lp, set_apply, hdc] using this.2
          · intro d g' hg' hd
            by_cases hdc : d = c
            · subst hdc
              simp only [set_same, Option.some.injEq] at hg'
              subst hg'
              exact h.chg d g hg hd
            · simp only [set_apply, hdc, if_false] at hg'; exact h.chg d g' hg' hd
          · intro d hd hsch hg'
            by_cases hdc : d = c
            · subst hdc; simp at hg'
            · simp only [set_apply, hdc, if_false] at hg'; exact h.hint d hd hsch hg'
        · rename_i hnin
          simp only [Option.some.injEq, Prod.mk.injEq] at hs
          obtain ⟨rfl, rfl⟩ := hs
          have hm : s.mem c = false := by
            cases hm : s.mem c with
            | false => rfl
            | true => exact absurd (h.mem_list.2 ⟨hm, her c, by simp [State.lp, hg]⟩) hnin
          have e1 : ∀ (t : State) d, t.chg = set s.chg c none → t.erased d = s.erased d := by
            intro t d ht
            by_cases hdc : d = c
            · subst hdc; rw [her]; exact erased_none (by simp [ht])
            · exact erased_eq (by simp [ht, hdc])
          refine ⟨?_, ?_, ?_, ?_, h.num, h.wait, ?_, h.curr, h.run, h.dead, hmin, ?_⟩
          · intro p d
            by_cases hdc : d = c
            · subst hdc; have := h.one p d; simp only [hm] at this ⊢; simpa using this
            · rw [e1 _ d rfl, lp_eq (s := s) (by simp [hdc]) (by rfl)]; exact h.one p d
          · intro d hd; rw [e1 _ d rfl] at hd; exact h.eras d hd
          · intro d hd; rw [e1 _ d rfl]; exact h.mu d hd
          · intro d hd
            have hdc : d ≠ c := by rintro rfl; have : s.mem d = true := hd; rw [hm] at this; simp at this
            rw [lp_eq (s := s) (by simp [hdc]) (by rfl)]; exact h.lt d hd
          · intro d g' hg' hd
            by_cases hdc : d = c
            · subst hdc; simp at hg'
            · simp only [set_apply, hdc, if_false] at hg'; exact h.chg d g' hg' hd
          · intro d hd hsch hg'
            have hdc : d ≠ c := by rintro rfl; have : s.mem d = true := hd; rw [hm] at this; simp at this
            simp only [set_apply, hdc, if_false] at hg'; exact h.hint d hd hsch hg'
      · simp at hs
    · simp at hs
  | push c =>
    simp only [step] at hs
    split at hs
    · rename_i g hg
      split at hs
      · rename_i hc
        simp only [Option.some.injEq, Prod.mk.injEq] at hs
        obtain ⟨rfl, rfl⟩ := hs
        have hec : s.erased c = true := by simp [State.erased, hg, hc.1]
        have hm := h.eras c hec
        have hother : ∀ d, d ≠ c → s.erased d = false := by
          intro d hdc
          cases he : s.erased d with
          | false => rfl
          | true => have := (h.eras d he).2; rw [hm.2] at this; simp at this; exact absurd this.symm hdc
        have hz : ∀ p, (s.lists p).count c = 0 := fun p => by rw [h.one, hec]; simp
        simp only [State.updMin]
        refine ⟨?_, ?_, ?_, ?_, h.num, h.wait, ?_, h.curr, h.run, h.dead, ?_, ?_⟩
        · intro p d
          by_cases hdc : d = c
          · subst hdc
            rw [erased_none (by simp), lp_none (by simp)]
            by_cases hpp : p = (s.ctx d).prio
            · subst hpp; simp [hz, hm.1]
            · simp [hpp, hz]
          · rw [erased_eq (s := s) (by simp [hdc]), lp_eq (s := s) (by simp [hdc]) (by rfl)]
            show _ = if s.mem d = true ∧ _ then 1 else 0
            rw [← h.one p d]
            by_cases hpp : p = (s.ctx c).prio
            · subst hpp
              simp [List.count_append, Ne.symm hdc]
            · simp [hpp]
        · intro d hd
          by_cases hdc : d = c
          · subst hdc; simp [State.erased] at hd
          · have : s.erased d = true := by simpa [State.erased, set_apply, hdc] using hd
            rw [hother d hdc] at this; simp at this
        · intro d hd; simp at hd
        · intro d hd
          have := h.lt d hd
          refine ⟨this.1, ?_⟩
          by_cases hdc : d = c
          · subst hdc; simp only [State.lp, set_same]; exact this.1
          · simpa [State.lp, set_apply, hdc] using this.2
        · intro d g' hg' hd
          by_cases hdc : d = c
          · subst hdc; simp at hg'
          · simp only [set_apply, hdc, if_false] at hg'; exact h.chg d g' hg' hd
        · show (if _ then _ else _) < 100
          split <;> omega
        · intro d hd hsch hg'
          by_cases hdc : d = c
          · subst hdc
            left
            show (if _ then _ else _) ≤ (s.ctx d).prio
            split <;> omega
          · simp only [set_apply, hdc, if_false] at hg'
            rcases h.hint d hd hsch hg' with h1 | h1
            · left
              have h1 : s.min ≤ (s.ctx d).prio := h1
              show (if _ then _ else _) ≤ (s.ctx d).prio
              split <;> omega
            · exact .inr h1
      · simp at hs
    · simp at hs
  | finish c =>
    simp only [step] at hs
    split at hs
    · rename_i hc
      obtain ⟨hcu, hst, hall⟩ := hc
      simp only [Option.some.injEq, Prod.mk.injEq] at hs
      obtain ⟨rfl, rfl⟩ := hs
      have hp : ∀ d, (set s.ctx c { s.ctx c with st := .finished } d).prio = (s.ctx d).prio ∧
          (set s.ctx c { s.ctx c with st := .finished } d).res = (s.ctx d).res ∧
          (set s.ctx c { s.ctx c with st := .finished } d).waiting = (s.ctx d).waiting ∧
          (set s.ctx c { s.ctx c with st := .finished } d).locked = (s.ctx d).locked := by
        intro d; by_cases hdc : d = c <;> simp [set_apply, hdc]
      refine ⟨?_, h.eras, h.mu, ?_, h.num, ?_, ?_, ?_, ?_, h.dead, hmin, ?_⟩
      · intro p d
        have := h.one p d
        simp only [State.erased, State.lp, (hp d).1] at *
        exact this
      · intro d hd
        have := h.lt d hd
        simp only [State.lp, (hp d).1] at *
        exact this
      · intro d; simp only [(hp d).2.1, (hp d).2.2.1]; exact h.wait d
      · intro d g hg hd
        simp only [(hp d).2.2.2]
        rcases h.chg d g hg hd with h1 | ⟨h1, h2⟩
        · exact .inl h1
        · by_cases hdc : d = c
          · subst hdc
            have hg : s.chg d = some g := hg
            rw [hg] at hall
            simp [h1] at hall
          · simp only [set_apply, hdc, if_false]; exact .inr ⟨h1, h2⟩
      · intro d hd
        have := h.curr d hd
        refine ⟨this.1, ?_⟩
        by_cases hdc : d = c
        · simp [set_apply, hdc]
        · simp only [set_apply, hdc, if_false]; exact this.2
      · intro d hd hr
        by_cases hdc : d = c
        · simp [set_apply, hdc] at hr
        · simp only [set_apply, hdc, if_false] at hr; exact h.run d hd hr
      · intro d hd hsch hg
        by_cases hdc : d = c
        · simp [set_apply, hdc, Ctx.canSchedule] at hsch
        · simp only [set_apply, hdc, if_false] at hsch ⊢; exact h.hint d hd hsch hg
    · simp at hs
  | unlock c =>
    simp only [step] at hs
    split at hs
    · rename_i hall
      simp only [Option.some.injEq, Prod.mk.injEq] at hs
      obtain ⟨rfl, rfl⟩ := hs
      have hp : ∀ d, (set s.ctx c { s.ctx c with locked := false } d).prio = (s.ctx d).prio ∧
          (set s.ctx c { s.ctx c with locked := false } d).res = (s.ctx d).res ∧
          (set s.ctx c { s.ctx c with locked := false } d).waiting = (s.ctx d).waiting ∧
          (set s.ctx c { s.ctx c with locked := false } d).st = (s.ctx d).st := by
        intro d; by_cases hdc : d = c <;> simp [set_apply, hdc]
      refine ⟨?_, h.eras, h.mu, ?_, h.num, ?_, ?_, ?_, ?_, h.dead, hmin, ?_⟩
      · intro p d
        have := h.one p d
        simp only [State.erased, State.lp, (hp d).1] at *
        exact this
      · intro d hd
        have := h.lt d hd
        simp only [State.lp, (hp d).1] at *
        exact this
      · intro d; simp only [(hp d).2.1, (hp d).2.2.1]; exact h.wait d
      · intro d g hg hd
        simp only [(hp d).2.2.2]
        rcases h.chg d g hg hd with ⟨h1, h2⟩ | h1
        · by_cases hdc : d = c
          · subst hdc
            have hg : s.chg d = some g := hg
            rw [hg] at hall
            simp [h1] at hall
          · simp only [set_apply, hdc, if_false]; exact .inl ⟨h1, h2⟩
        · exact .inr h1
      · intro d hd; simp only [(hp d).2.2.2]; exact h.curr d hd
      · intro d hd hr; simp only [(hp d).2.2.2] at hr; exact h.run d hd hr
      · intro d hd hsch hg
        have e : (set s.ctx c { s.ctx c with locked := false } d).canSchedule = (s.ctx d).canSchedule := by
          simp only [Ctx.canSchedule, (hp d).2.2.2, (hp d).2.2.1]
        simp only [e, (hp d).1] at hsch ⊢
        exact h.hint d hd hsch hg
    · simp at hs
  | remove c =>
    simp only [step, State.muFree, Bool.or_false, beq_iff_eq] at hs
    split at hs
    · rename_i hc
      obtain ⟨hmu, hm, hst, hlk, hcu⟩ := hc
      simp only [Option.some.injEq, Prod.mk.injEq] at hs
      obtain ⟨rfl, rfl⟩ := hs
      have hg : s.chg c = none := by
        cases hg : s.chg c with
        | none => rfl
        | some g =>
          rcases h.chg c g hg hm with ⟨_, h2⟩ | ⟨_, h2⟩
          · rw [hlk] at h2; simp at h2
          · exact absurd hst h2
      refine ⟨?_, ?_, h.mu, ?_, ?_, h.wait, ?_, ?_, ?_, ?_, hmin, ?_⟩
      · intro p d
        have := h.one p d
        by_cases hdc : d = c
        · subst hdc
          simp only [set_same, Bool.false_eq_true, false_and, if_false]
          by_cases hp : p = (s.ctx d).prio
          · subst hp; simp only [set_same]; exact List.count_eq_zero_of_not_mem (by simp)
          · simp only [set_apply, hp, if_false]
            rw [this, lp_none hg]; simp [hp]
        · rw [erased_eq (s := s) (by rfl), lp_eq (s := s) (by rfl) (by rfl)]
          simp only [set_apply, hdc, if_false, ← this]
          by_cases hp : p = (s.ctx c).prio
          · subst hp; simp only [if_true]; exact List.count_filter (by simpa using hdc)
          · simp only [hp, if_false]
      · intro d hd
        have := h.eras d hd
        rw [hmu] at this; simp at this
      · intro d hd
        by_cases hdc : d = c
        · simp [hdc] at hd
        · simp only [set_apply, hdc, if_false] at hd; exact h.lt d hd
      · obtain ⟨l, h1, h2, h3⟩ := h.num
        refine ⟨l.erase c, h1.erase c, ?_, ?_⟩
        · intro d
          by_cases hdc : d = c
          · subst hdc; simp [List.Nodup.mem_erase_iff h1]
          · simp [List.mem_erase_of_ne hdc, set_apply, hdc, h2]
        · rw [List.length_erase_of_mem ((h2 c).2 hm), h3]
      · intro d g hg' hd
        by_cases hdc : d = c
        · simp [hdc] at hd
        · simp only [set_apply, hdc, if_false] at hd; exact h.chg d g hg' hd
      · intro d hd
        have hdc : d ≠ c := by rintro rfl; exact hcu hd
        simp only [set_apply, hdc, if_false]; exact h.curr d hd
      · intro d hd hr
        by_cases hdc : d = c
        · simp [hdc] at hd
        · simp only [set_apply, hdc, if_false] at hd; exact h.run d hd hr
      · intro d hd
        by_cases hdc : d = c
        · simp [hdc]
        · simp only [set_apply, hdc, if_false] at hd ⊢; exact h.dead d hd
      · intro d hd hsch hg'
        by_cases hdc : d = c
        · simp [hdc] at hd
        · simp only [set_apply, hdc, if_false] at hd; exact h.hint d hd hsch hg'
    · simp at hs
  | pick =>
    simp only [step] at hs
    split at hs
    · simp only [Option.some.injEq, Prod.mk.injEq] at hs
      obtain ⟨rfl, rfl⟩ := hs
      exact inv_pick h
    · simp at hs
  | takeAll =>
    simp only [step, State.muFree, Bool.or_false, beq_iff_eq] at hs
    split at hs
    · rename_i hmu
      simp only [Option.some.injEq, Prod.mk.injEq] at hs
      obtain ⟨rfl, rfl⟩ := hs
      have her : ∀ d, s.erased d = false := fun d => by
        cases he : s.erased d with
        | false => rfl
        | true => have := (h.eras d he).2; rw [hmu] at this; simp at this
      have hmv := fun c => mem_movable h (c := c)
      have hmem : ∀ d, (s.mem d && !decide (d ∈ s.movable)) = true → s.mem d = true := by
        intro d hd; simp only [Bool.and_eq_true] at hd; exact hd.1
      simp only [State.takeAll]
      refine ⟨?_, ?_, ?_, ?_, ?_, h.wait, ?_, ?_, ?_, ?_, hmin, ?_⟩
      · intro p d
        have h1 := h.one p d
        have h2 := hmv d
        have hlt := fun hm => (h.lt d hm).2
        rw [erased_eq (s := s) (by rfl), lp_eq (s := s) (by rfl) (by rfl), her]
        rw [her] at h1 h2
        simp only [true_and] at h1 h2 ⊢
        by_cases hmd : d ∈ s.movable
        · have h3 := h2.1 hmd
          simp only [hmd, decide_true, Bool.not_true, Bool.and_false, Bool.false_eq_true, false_and, if_false]
          by_cases hp : p = s.lp d
          · subst hp
            rw [if_pos ⟨h3.2.2, by simp only [maxPriority]; exact hlt h3.1⟩]
            refine List.count_eq_zero_of_not_mem ?_
            simp [List.mem_filter, h3.2.1]
          · split
            · rw [List.count_eq_zero]
              intro hin
              exact hp (h.mem_list.1 (List.mem_filter.1 hin).1).2.2
            · rw [h1]; simp [hp]
        · simp only [hmd, decide_false, Bool.not_false, Bool.and_true]
          rw [← h1]
          split
          · rename_i hr
            by_cases hin : d ∈ s.lists p
            · have h4 := h.mem_list.1 hin
              have : (s.ctx d).canMove = false := by
                cases hcm : (s.ctx d).canMove with
                | false => rfl
                | true => exact absurd (h2.2 ⟨h4.1, hcm, by rw [← h4.2.2]; exact hr.1⟩) hmd
              exact List.count_filter (by simp [this])
            · rw [List.count_eq_zero_of_not_mem hin, List.count_eq_zero_of_not_mem (fun hc => hin (List.mem_filter.1 hc).1)]
          · rfl
      · intro d hd
        have : s.erased d = true := hd
        rw [her] at this; simp at this
      · intro d hd; exact h.mu d hd
      · intro d hd; exact h.lt d (hmem d hd)
      · obtain ⟨l, h1, h2, h3⟩ := h.num
        refine ⟨l.filter fun c => !decide (c ∈ s.movable), h1.filter _, ?_, ?_⟩
        · intro d; simp [List.mem_filter, h2]
        · show _ = s.count - _
          rw [num_diff h1 (movable_nodup h) (fun c hc => (h2 c).2 ((hmv c).1 hc).1), h3]
      · intro d g hg hd; exact h.chg d g hg (hmem d hd)
      · intro d hd
        have h1 := h.curr d hd
        refine ⟨?_, h1.2⟩
        have : d ∉ s.movable := by
          intro hin
          have := ((hmv d).1 hin).2.2.1
          simp only [Ctx.canMove] at this
          cases hst : (s.ctx d).st <;> simp_all
        simp [h1.1, this]
      · intro d hd hr; exact h.run d (hmem d hd) hr
      · intro d hd
        have hd : s.dead d = true := hd
        have := h.dead d hd
        simp [this]
      · intro d hd hsch hg; exact h.hint d (hmem d hd) hsch hg
    · simp at hs
  | takeOne =>
    simp only [step, State.muFree, Bool.or_false, beq_iff_eq] at hs
    split at hs
    · rename_i hmu
      have her : ∀ d, s.erased d = false := fun d => by
        cases he : s.erased d with
        | false => rfl
        | true => have := (h.eras d he).2; rw [hmu] at this; simp at this
      split at hs
      · rename_i i c hf
        simp only [Option.some.injEq, Prod.mk.injEq] at hs
        obtain ⟨rfl, rfl⟩ := hs
        obtain ⟨f1, f2, f3⟩ := firstMovable_some hf
        have hm := h.mem_list.1 f2
        have hmem : ∀ d, set s.mem c false d = true → s.mem d = true ∧ d ≠ c := by
          intro d hd
          by_cases hdc : d = c
          · simp [hdc] at hd
          · simp only [set_apply, hdc, if_false] at hd; exact ⟨hd, hdc⟩
        refine ⟨?_, ?_, h.mu, ?_, ?_, h.wait, ?_, ?_, ?_, ?_, hmin, ?_⟩
        · intro p d
          have h1 := h.one p d
          by_cases hdc : d = c
          · subst hdc
            simp only [set_same, Bool.false_eq_true, false_and, if_false]
            by_cases hp : p = i
            · subst hp; simp only [set_same]; exact List.count_eq_zero_of_not_mem (by simp)
            · simp only [set_apply, hp, if_false]
              rw [h1, if_neg]
              intro hx
              exact hp (hx.2.2.trans hm.2.2.symm)
          · simp only [set_apply, hdc, if_false]
            rw [erased_eq (s := s) (by rfl), lp_eq (s := s) (by rfl) (by rfl), ← h1]
            by_cases hp : p = i
            · subst hp; simp only [if_true]; exact List.count_filter (by simpa using hdc)
            · simp only [hp, if_false]
        · intro d hd
          have : s.erased d = true := hd
          rw [her] at this; simp at this
        · intro d hd; exact h.lt d (hmem d hd).1
        · obtain ⟨l, h1, h2, h3⟩ := h.num
          refine ⟨l.erase c, h1.erase c, ?_, ?_⟩
          · intro d
            by_cases hdc : d = c
            · subst hdc; simp [List.Nodup.mem_erase_iff h1]
            · simp [List.mem_erase_of_ne hdc, set_apply, hdc, h2]
          · rw [List.length_erase_of_mem ((h2 c).2 hm.1), h3]
        · intro d g hg hd; exact h.chg d g hg (hmem d hd).1
        · intro d hd
          have h1 := h.curr d hd
          have hdc : d ≠ c := by
            rintro rfl
            simp only [Ctx.canMove] at f3
            cases hst : (s.ctx d).st <;> simp_all
          simp only [set_apply, hdc, if_false]; exact h1
        · intro d hd hr; exact h.run d (hmem d hd).1 hr
        · intro d hd
          by_cases hdc : d = c
          · simp [hdc]
          · simp only [set_apply, hdc, if_false]; exact h.dead d hd
        · intro d hd hsch hg; exact h.hint d (hmem d hd).1 hsch hg
      · simp only [Option.some.injEq, Prod.mk.injEq] at hs
        obtain ⟨rfl, rfl⟩ := hs
        exact h
    · simp at hs

theorem inv_runs {as : List Act} {s : State} {es : List Ev} (h : runs (step false) State.init as = some (s, es)) : Inv s :=
  runs_inv (step := step false) Inv (fun _ _ _ _ hI hs => inv_step hI hs) as _ s es inv_init h

end Verif.Sched
