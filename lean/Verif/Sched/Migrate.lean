import Verif.Sched.EnvProps

/-! # Several scheduling threads and the migration of coroutines between them (C55)

Any number of envs, each running the machine of `Verif.Sched.Env`. What `take_all_movable_ctx`/`take_one_movable_ctx` return is in the
local vector of `redistribute_ctx__` or `steal_ctx_routine__` (co_manager.cpp:266-306, 441-491) until `move_ctx_to_here` adds it to an
env. Simplification: a coroutine in that vector is not touched by others meanwhile. -/

namespace Verif.Sched

/-- All envs, the coroutines under way, and the coroutines created so far. (Concerns co_manager.cpp:87-491.) -/
structure Global where
  env : Nat → State
  transit : List (Nat × Ctx)
  created : Nat → Bool

/-- Nothing created (co_manager.cpp:87-103 makes the envs). -/
def Global.init : Global := ⟨fun _ => State.init, [], fun _ => false⟩

/-- Choices. (Concerns co_manager.cpp:87-491.) -/
inductive GAct
  /-- `create_and_schedule_ctx` (co_manager.cpp:421-439): a new coroutine is added to env `e` -/
  | create (e c : Nat) (v : Ctx)
  /-- a coroutine under way is added to env `e` (co_manager.cpp:266-306, 441-491) -/
  | migrate (e c : Nat) (v : Ctx)
  /-- anything else in env `e` -/
  | act (e : Nat) (a : Act)

/-- The coroutines a list of events takes out. (Concerns co_manager.cpp:87-491.) -/
def taken : List Ev → List Nat
  | [] => []
  | .take cs :: es => cs ++ taken es
  | _ :: es => taken es

/-- Whether the action is an addition; those are `create` and `migrate`. (Concerns co_manager.cpp:87-491.) -/
def Act.isAdd : Act → Bool
  | .add _ _ => true
  | _ => false

/-- One step of one env; events carry the env. (Concerns co_manager.cpp:87-491.) -/
def gstep (g : Global) : GAct → Option (Global × List (Nat × Ev))
  | .create e c v =>
    if g.created c = false then
      match step false (g.env e) (.add c v) with
      | some (s, es) => some (⟨set g.env e s, g.transit, set g.created c true⟩, es.map fun x => (e, x))
      | none => none
    else none
  | .migrate e c v =>
    if (c, v) ∈ g.transit then
      match step false (g.env e) (.add c v) with
      | some (s, es) => some (⟨set g.env e s, g.transit.erase (c, v), g.created⟩, es.map fun x => (e, x))
      | none => none
    else none
  | .act e a =>
    if a.isAdd = false then
      match step false (g.env e) a with
      | some (s, es) =>
        some (⟨set g.env e s, (taken es).map (fun c => (c, s.ctx c)) ++ g.transit, g.created⟩, es.map fun x => (e, x))
      | none => none
    else none

/-- Proof device. (Concerns co_manager.cpp:87-491.) -/
structure GInv (g : Global) : Prop where
  inv : ∀ e, Inv (g.env e)
  one : ∀ c e e', (g.env e).mem c = true → (g.env e').mem c = true → e = e'
  out : ∀ c v, (c, v) ∈ g.transit → ∀ e, (g.env e).mem c = false
  nodup : (g.transit.map (·.1)).Nodup
  made : ∀ c e, (g.env e).mem c = true ∨ (g.env e).dead c = true → g.created c = true
  madeT : ∀ c v, (c, v) ∈ g.transit → g.created c = true
  some : ∀ c, g.created c = true → (∃ e, (g.env e).mem c = true) ∨ (∃ v, (c, v) ∈ g.transit) ∨ ∃ e, (g.env e).dead c = true

theorem ginv_init : GInv Global.init :=
  ⟨fun _ => inv_init, by simp [Global.init, State.init], by simp [Global.init], by simp [Global.init],
    by simp [Global.init, State.init], by simp [Global.init], by simp [Global.init]⟩

theorem add_mem {s s' : State} {c : Nat} {v : Ctx} {es : List Ev} (h : step false s (.add c v) = some (s', es)) :
    s'.mem = set s.mem c true ∧ s'.dead = s.dead ∧ s.dead c = false := by
  simp only [step] at h
  split at h
  · rename_i hc
    simp only [Option.some.injEq, Prod.mk.injEq] at h
    obtain ⟨rfl, rfl⟩ := h
    exact ⟨rfl, rfl, hc.2.2.1⟩
  · simp at h

/-- What another action does to membership: it keeps it, takes the listed ones, or destroys one. -/
theorem act_mem {s s' : State} {a : Act} {es : List Ev} (hI : Inv s) (ha : a.isAdd = false) (h : step false s a = some (s', es)) :
    ((taken es).Nodup ∧ (∀ c ∈ taken es, s.mem c = true) ∧ (∀ c, s'.mem c = (s.mem c && !decide (c ∈ taken es))) ∧ s'.dead = s.dead) ∨
    (taken es = [] ∧ ∃ c, s.mem c = true ∧ s'.mem = set s.mem c false ∧ s'.dead = set s.dead c true) := by
  have triv : s'.mem = s.mem → s'.dead = s.dead → taken es = [] →
    ((taken es).Nodup ∧ (∀ c ∈ taken es, s.mem c = true) ∧ (∀ c, s'.mem c = (s.mem c && !decide (c ∈ taken es))) ∧ s'.dead = s.dead) := by
    intro h1 h2 h3
    rw [h3]
    exact ⟨by simp, by simp, by simp [h1], h2⟩
  cases a with
  | add c v => simp [Act.isAdd] at ha
  | wake c ph =>
    simp only [step] at h
    split at h
    · cases ph <;> simp only at h <;> repeat' split at h
      all_goals (simp only [Option.some.injEq, Prod.mk.injEq] at h; obtain ⟨rfl, rfl⟩ := h; exact .inl (triv rfl rfl rfl))
    · simp at h
  | remove c =>
    simp only [step] at h
    split at h
    · rename_i hc
      simp only [Option.some.injEq, Prod.mk.injEq] at h
      obtain ⟨rfl, rfl⟩ := h
      exact .inr ⟨rfl, c, hc.2.1, rfl, rfl⟩
    · simp at h
  | pick =>
    simp only [step] at h
    split at h
    · simp only [Option.some.injEq, Prod.mk.injEq] at h
      obtain ⟨rfl, rfl⟩ := h
      obtain ⟨f1, f2, _⟩ := pick_fields s
      exact .inl (triv f1 f2 rfl)
    · simp at h
  | takeAll =>
    simp only [step] at h
    split at h
    · simp only [Option.some.injEq, Prod.mk.injEq] at h
      obtain ⟨rfl, rfl⟩ := h
      simp only [taken, List.append_nil]
      exact .inl ⟨movable_nodup hI, fun c hc => ((mem_movable hI).1 hc).1, fun c => rfl, rfl⟩
    · simp at h
  | takeOne =>
    simp only [step] at h
    split at h
    · split at h
      · rename_i i c hf
        simp only [Option.some.injEq, Prod.mk.injEq] at h
        obtain ⟨rfl, rfl⟩ := h
        simp only [taken, List.append_nil]
        refine .inl ⟨by simp, ?_, ?_, by first | trivial | rfl⟩
        · intro d hd
          simp only [List.mem_singleton] at hd
          subst hd
          exact (hI.mem_list.1 (firstMovable_some hf).2.1).1
        · intro d
          by_cases hd : d = c <;> simp [set_apply, hd]
      · simp only [Option.some.injEq, Prod.mk.injEq] at h
        obtain ⟨rfl, rfl⟩ := h
        exact .inl (triv rfl rfl rfl)
    · simp at h
  | _ =>
    simp only [step] at h
    repeat' split at h
    all_goals first
      | (simp only [Option.some.injEq, Prod.mk.injEq] at h; obtain ⟨rfl, rfl⟩ := h; exact .inl (triv rfl rfl rfl))
      | simp at h

theorem ginv_step {g g' : Global} {a : GAct} {es : List (Nat × Ev)} (h : GInv g) (hs : gstep g a = some (g', es)) : GInv g' := by
  obtain ⟨hI, h1, h2, h3, h4, h5, h6⟩ := h
  have hinv : ∀ e s' a fs, step false (g.env e) a = some (s', fs) → ∀ e', Inv (set g.env e s' e') := by
    intro e s' a fs hst e'
    by_cases he : e' = e
    · subst he; simp only [set_same]; exact inv_step (hI e') hst
    · simp only [set_apply, he, if_false]; exact hI e'
  -- an addition of `c`, which was nowhere
  have hadd : ∀ e s' c v fs, step false (g.env e) (.add c v) = some (s', fs) → (∀ e', (g.env e').mem c = false) →
      ∀ d e', (set g.env e s' e').mem d = true ↔ ((g.env e').mem d = true ∨ (d = c ∧ e' = e)) := by
    intro e s' c v fs hst _ d e'
    obtain ⟨m1, _⟩ := add_mem hst
    by_cases he : e' = e
    · subst he
      by_cases hd : d = c
      · subst hd; simp [m1]
      · simp [m1, set_apply, hd]
    · simp [set_apply, he]
  have hdead : ∀ e s' c v fs, step false (g.env e) (.add c v) = some (s', fs) → ∀ d e', (set g.env e s' e').dead d = (g.env e').dead d := by
    intro e s' c v fs hst d e'
    obtain ⟨_, m2, _⟩ := add_mem hst
    by_cases he : e' = e
    · subst he; simp [m2]
    · simp [set_apply, he]
  cases a with
  | create e c v =>
    simp only [gstep] at hs
    split at hs
    · rename_i hc
      split at hs
      · rename_i s' fs hst
        simp only [Option.some.injEq, Prod.mk.injEq] at hs
        obtain ⟨rfl, rfl⟩ := hs
        have hno : ∀ e', (g.env e').mem c = false := by
          intro e'
          cases hm : (g.env e').mem c with
          | false => rfl
          | true => have := h4 c e' (.inl hm); rw [hc] at this; simp at this
        have hm := hadd e s' c v fs hst hno
        have hd := hdead e s' c v fs hst
        refine ⟨hinv _ _ _ _ hst, ?_, ?_, h3, ?_, ?_, ?_⟩
        · intro d e1 e2 k1 k2
          rw [hm] at k1 k2
          rcases k1 with k1 | ⟨rfl, rfl⟩
          · rcases k2 with k2 | ⟨rfl, rfl⟩
            · exact h1 d e1 e2 k1 k2
            · rw [hno] at k1; simp at k1
          · rcases k2 with k2 | ⟨_, rfl⟩
            · rw [hno] at k2; simp at k2
            · rfl
        · intro d w hd' e'
          cases hx : (set g.env e s' e').mem d with
          | false => rfl
          | true =>
            rw [hm] at hx
            rcases hx with hx | ⟨rfl, _⟩
            · rw [h2 d w hd' e'] at hx; simp at hx
            · have := h5 d w hd'; rw [hc] at this; simp at this
        · intro d e' hx
          simp only [hd] at hx
          rw [hm] at hx
          by_cases hdc : d = c
          · simp [hdc]
          · simp only [set_apply, hdc, if_false]
            rcases hx with (hx | ⟨hx, _⟩) | hx
            · exact h4 d e' (.inl hx)
            · exact absurd hx hdc
            · exact h4 d e' (.inr hx)
        · intro d w hd'
          by_cases hdc : d = c
          · simp [hdc]
          · simp only [set_apply, hdc, if_false]; exact h5 d w hd'
        · intro d hx
          by_cases hdc : d = c
          · exact .inl ⟨e, (hm d e).2 (.inr ⟨hdc, rfl⟩)⟩
          · simp only [set_apply, hdc, if_false] at hx
            rcases h6 d hx with ⟨e', k⟩ | k | ⟨e', k⟩
            · exact .inl ⟨e', (hm d e').2 (.inl k)⟩
            · exact .inr (.inl k)
            · exact .inr (.inr ⟨e', by rw [hd]; exact k⟩)
      · simp at hs
    · simp at hs
  | migrate e c v =>
    simp only [gstep] at hs
    split at hs
    · rename_i hc
      split at hs
      · rename_i s' fs hst
        simp only [Option.some.injEq, Prod.mk.injEq] at hs
        obtain ⟨rfl, rfl⟩ := hs
        have hno := h2 c v hc
        have hm := hadd e s' c v fs hst hno
        have hd := hdead e s' c v fs hst
        have hperm := (List.perm_cons_erase hc).map (·.1)
        have hnd : (c :: (g.transit.erase (c, v)).map (·.1)).Nodup := by
          have := (hperm.nodup_iff).1 h3
          simpa using this
        rw [List.nodup_cons] at hnd
        refine ⟨hinv _ _ _ _ hst, ?_, ?_, hnd.2, ?_, ?_, ?_⟩
        · intro d e1 e2 k1 k2
          rw [hm] at k1 k2
          rcases k1 with k1 | ⟨rfl, rfl⟩
          · rcases k2 with k2 | ⟨rfl, rfl⟩
            · exact h1 d e1 e2 k1 k2
            · rw [hno] at k1; simp at k1
          · rcases k2 with k2 | ⟨_, rfl⟩
            · rw [hno] at k2; simp at k2
            · rfl
        · intro d w hd' e'
          cases hx : (set g.env e s' e').mem d with
          | false => rfl
          | true =>
            rw [hm] at hx
            rcases hx with hx | ⟨rfl, _⟩
            · rw [h2 d w (List.mem_of_mem_erase hd') e'] at hx; simp at hx
            · exact absurd (List.mem_map.2 ⟨_, hd', rfl⟩) hnd.1
        · intro d e' hx
          simp only [hd] at hx
          rw [hm] at hx
          rcases hx with (hx | ⟨rfl, _⟩) | hx
          · exact h4 d e' (.inl hx)
          · exact h5 d v hc
          · exact h4 d e' (.inr hx)
        · intro d w hd'; exact h5 d w (List.mem_of_mem_erase hd')
        · intro d hx
          by_cases hdc : d = c
          · exact .inl ⟨e, (hm d e).2 (.inr ⟨hdc, rfl⟩)⟩
          · rcases h6 d hx with ⟨e', k⟩ | ⟨w, k⟩ | ⟨e', k⟩
            · exact .inl ⟨e', (hm d e').2 (.inl k)⟩
            · exact .inr (.inl ⟨w, (List.mem_erase_of_ne (by simp [hdc])).2 k⟩)
            · exact .inr (.inr ⟨e', by rw [hd]; exact k⟩)
      · simp at hs
    · simp at hs
  | act e a =>
    simp only [gstep] at hs
    split at hs
    · rename_i ha
      split at hs
      · rename_i s' fs hst
        simp only [Option.some.injEq, Prod.mk.injEq] at hs
        obtain ⟨rfl, rfl⟩ := hs
        rcases act_mem (hI e) ha hst with ⟨a1, a2, a3, a4⟩ | ⟨a1, c, a2, a3, a4⟩
        · have hm : ∀ d e', (set g.env e s' e').mem d = true ↔ ((g.env e').mem d = true ∧ (e' = e → d ∉ taken fs)) := by
            intro d e'
            by_cases he : e' = e
            · subst he; simp [a3]
            · simp [set_apply, he]
          have hd : ∀ d e', (set g.env e s' e').dead d = (g.env e').dead d := by
            intro d e'
            by_cases he : e' = e
            · subst he; simp [a4]
            · simp [set_apply, he]
          have hT : ∀ d w, (d, w) ∈ (taken fs).map (fun c => (c, s'.ctx c)) ++ g.transit → d ∈ taken fs ∨ (d, w) ∈ g.transit := by
            intro d w hx
            rcases List.mem_append.1 hx with hx | hx
            · obtain ⟨x, k1, k2⟩ := List.mem_map.1 hx
              simp only [Prod.mk.injEq] at k2
              exact .inl (k2.1 ▸ k1)
            · exact .inr hx
          refine ⟨hinv _ _ _ _ hst, ?_, ?_, ?_, ?_, ?_, ?_⟩
          · intro d e1 e2 k1 k2
            rw [hm] at k1 k2
            exact h1 d e1 e2 k1.1 k2.1
          · intro d w hx e'
            cases hy : (set g.env e s' e').mem d with
            | false => rfl
            | true =>
              rw [hm] at hy
              rcases hT d w hx with k | k
              · have := h1 d e' e hy.1 (a2 d k)
                exact absurd k (hy.2 this)
              · have := h2 d w k e'
                rw [hy.1] at this; simp at this
          · rw [List.map_append, List.nodup_append, List.map_map]
            refine ⟨?_, h3, ?_⟩
            · have : ((fun x : Nat × Ctx => x.1) ∘ fun c => (c, s'.ctx c)) = id := rfl
              rw [this, List.map_id]; exact a1
            · intro x hx y hy hxy
              subst hxy
              simp only [List.mem_map, Function.comp] at hx hy
              obtain ⟨x', k1, rfl⟩ := hx
              obtain ⟨⟨y1, y2⟩, k2, rfl⟩ := hy
              have := h2 _ _ k2 e
              rw [a2 _ k1] at this; simp at this
          · intro d e' hx
            rw [hm, hd] at hx
            rcases hx with hx | hx
            · exact h4 d e' (.inl hx.1)
            · exact h4 d e' (.inr hx)
          · intro d w hx
            rcases hT d w hx with k | k
            · exact h4 d e (.inl (a2 d k))
            · exact h5 d w k
          · intro d hx
            rcases h6 d hx with ⟨e', k⟩ | ⟨w, k⟩ | ⟨e', k⟩
            · by_cases hk : e' = e ∧ d ∈ taken fs
              · exact .inr (.inl ⟨s'.ctx d, List.mem_append_left _ (List.mem_map.2 ⟨d, hk.2, rfl⟩)⟩)
              · exact .inl ⟨e', (hm d e').2 ⟨k, fun he hin => hk ⟨he, hin⟩⟩⟩
            · exact .inr (.inl ⟨w, List.mem_append_right _ k⟩)
            · exact .inr (.inr ⟨e', by rw [hd]; exact k⟩)
        · rw [a1]
          simp only [List.map_nil, List.nil_append]
          have hm : ∀ d e', (set g.env e s' e').mem d = true ↔ ((g.env e').mem d = true ∧ (e' = e → d ≠ c)) := by
            intro d e'
            by_cases he : e' = e
            · subst he
              by_cases hd : d = c
              · simp [a3, hd]
              · simp [a3, set_apply, hd]
            · simp [set_apply, he]
          have hd : ∀ d e', (set g.env e s' e').dead d = true ↔ ((g.env e').dead d = true ∨ (e' = e ∧ d = c)) := by
            intro d e'
            by_cases he : e' = e
            · subst he
              by_cases hd : d = c
              · simp [a4, hd]
              · simp [a4, set_apply, hd]
            · simp [set_apply, he]
          refine ⟨hinv _ _ _ _ hst, ?_, ?_, h3, ?_, h5, ?_⟩
          · intro d e1 e2 k1 k2
            rw [hm] at k1 k2
            exact h1 d e1 e2 k1.1 k2.1
          · intro d w hx e'
            cases hy : (set g.env e s' e').mem d with
            | false => rfl
            | true =>
              rw [hm] at hy
              have := h2 d w hx e'
              rw [hy.1] at this; simp at this
          · intro d e' hx
            rw [hm, hd] at hx
            rcases hx with hx | hx | ⟨_, rfl⟩
            · exact h4 d e' (.inl hx.1)
            · exact h4 d e' (.inr hx)
            · exact h4 d e (.inl a2)
          · intro d hx
            rcases h6 d hx with ⟨e', k⟩ | k | ⟨e', k⟩
            · by_cases hk : e' = e ∧ d = c
              · exact .inr (.inr ⟨e', (hd d e').2 (.inr hk)⟩)
              · exact .inl ⟨e', (hm d e').2 ⟨k, fun he hin => hk ⟨he, hin⟩⟩⟩
            · exact .inr (.inl k)
            · exact .inr (.inr ⟨e', (hd d e').2 (.inl k)⟩)
      · simp at hs
    · simp at hs

/-- In how many places a coroutine is kept: lists of envs (only finitely many can be asked for) and the vector of coroutines under
way. (Concerns co_manager.cpp:87-491.) -/
def Global.places (g : Global) (envs prios : List Nat) (c : Nat) : Nat :=
  (g.transit.map (·.1)).count c + (envs.map fun e => (prios.map fun p => ((g.env e).lists p).count c).foldr (· + ·) 0).foldr (· + ·) 0

theorem sum_zero {f : Nat → Nat} : ∀ {l : List Nat}, (∀ x ∈ l, f x = 0) → (l.map f).foldr (· + ·) 0 = 0
  | [], _ => rfl
  | a :: l, h => by simp [h a, sum_zero (l := l) fun x hx => h x (by simp [hx])]

theorem sum_le_one {f : Nat → Nat} : ∀ {l : List Nat}, l.Nodup → (∀ x, f x ≤ 1) → (∀ x y, f x ≠ 0 → f y ≠ 0 → x = y) →
    (l.map f).foldr (· + ·) 0 ≤ 1
  | [], _, _, _ => by simp
  | a :: l, hn, h1, h2 => by
    rw [List.nodup_cons] at hn
    simp only [List.map_cons, List.foldr_cons]
    by_cases ha : f a = 0
    · rw [ha]; simpa using sum_le_one hn.2 h1 h2
    · have : ∀ x ∈ l, f x = 0 := by
        intro x hx
        cases hfx : f x with
        | zero => rfl
        | succ n =>
          have := h2 a x ha (by omega)
          subst this
          exact absurd hx hn.1
      rw [sum_zero this]
      have := h1 a
      omega

/-- **C55, several envs**: after every history of creations, schedulings, priority changes, removals and migrations among any number
of envs, a coroutine is kept in at most one place altogether (one list of one env, or the vector under way), and a coroutine that was
created and not destroyed is either on its way (once), or belongs to exactly one env and is in the list of its priority there — unless
its priority is just being changed. -/
theorem C55_no_loss_no_duplicate {as : List GAct} {g : Global} {es : List (Nat × Ev)}
    (h : runs gstep Global.init as = some (g, es)) (c : Nat) :
    (∀ envs prios : List Nat, envs.Nodup → prios.Nodup → g.places envs prios c ≤ 1) ∧
    (g.created c = true → (∀ e, (g.env e).dead c = false) →
      (g.transit.map (·.1)).count c = 1 ∨
      ∃ e, (g.env e).chg c ≠ none ∨ ((g.env e).lists ((g.env e).ctx c).prio).count c = 1) := by
  have hG := runs_inv (step := gstep) GInv (fun _ _ _ _ hI hs => ginv_step hI hs) as _ g es ginv_init h
  constructor
  · intro envs prios he hp
    simp only [Global.places]
    have hin : ∀ e, (g.env e).mem c = false → (prios.map fun p => ((g.env e).lists p).count c).foldr (· + ·) 0 = 0 := by
      intro e hm
      refine sum_zero fun p _ => ?_
      rw [(hG.inv e).one]; simp [hm]
    by_cases ht : c ∈ g.transit.map (·.1)
    · obtain ⟨⟨c', v⟩, h1, rfl⟩ := List.mem_map.1 ht
      have := hG.out _ _ h1
      rw [sum_zero fun e _ => hin e (this e)]
      have := List.nodup_iff_count.1 hG.nodup c'
      simpa using this
    · rw [List.count_eq_zero_of_not_mem ht, Nat.zero_add]
      refine sum_le_one he ?_ ?_
      · intro e
        refine sum_le_one hp ?_ ?_
        · intro p; rw [(hG.inv e).one]; split <;> omega
        · intro p q
          rw [(hG.inv e).one, (hG.inv e).one]
          intro h1 h2
          have k1 : p = (g.env e).lp c := by
            rcases Decidable.em (p = (g.env e).lp c) with k | k
            · exact k
            · simp [k] at h1
          have k2 : q = (g.env e).lp c := by
            rcases Decidable.em (q = (g.env e).lp c) with k | k
            · exact k
            · simp [k] at h2
          rw [k1, k2]
      · intro e e' h1 h2
        have m : ∀ e, (prios.map fun p => ((g.env e).lists p).count c).foldr (· + ·) 0 ≠ 0 → (g.env e).mem c = true := by
          intro e hne
          cases hm : (g.env e).mem c with
          | true => rfl
          | false => exact absurd (hin e hm) hne
        exact hG.one c e e' (m e h1) (m e' h2)
  · intro hc hd
    rcases hG.some c hc with ⟨e, h1⟩ | ⟨v, h1⟩ | ⟨e, h1⟩
    · right
      refine ⟨e, ?_⟩
      cases hg : (g.env e).chg c with
      | some x => left; simp
      | none =>
        right
        rw [(hG.inv e).one, lp_none hg, erased_none hg]
        simp [h1]
    · left
      have := List.nodup_iff_count.1 hG.nodup c
      have := List.count_pos_iff.2 (List.mem_map.2 ⟨_, h1, rfl⟩ : c ∈ g.transit.map (·.1))
      omega
    · rw [hd e] at h1; simp at h1

/-- Non-trivial case: 1 runs on env 0, 2 and 3 wait their turn there and are moved to env 1 and env 2. -/
example : (runs gstep Global.init [.create 0 1 (ready 5), .create 0 2 (ready 6), .create 0 3 (ready 7), .act 0 .pick, .act 0 .takeAll,
      .migrate 1 2 (ready 6), .migrate 2 3 (ready 7), .act 2 .pick]).map
    (fun p => ((p.1.env 0).lists 5, (p.1.env 1).lists 6, (p.1.env 2).lists 7, (p.1.env 2).curr, p.1.places [0, 1, 2] [5, 6, 7] 2)) =
    some ([1], [2], [3], some 3, 1) := by decide

end Verif.Sched
