import Verif.Sched.Life

/-! # The memory of stacks (C87)

The machine of Verif/Sched/Life.lean together with the stacks: which are allocated, and which one every coroutine object points to.
Stacks have identities that are never used again. The env's own shared stack belongs to the env (co_env.cpp:53-56, freed with it,
co_env_factory.cpp:34-45) and the idle coroutine has a stack of size 0; both are left out. -/

namespace Verif.Stacks

open Verif.Life (Act CSt Fate Pc)

/-- `co_ctx::stack()`: the null pointer, an allocated stack, the env's shared stack. (Concerns co_env.cpp:53-476, co_ctx_factory.cpp:15-45.) -/
inductive Stk
  | null
  | own (i : Nat)
  | sh
deriving DecidableEq, Repr

/-- The env, the pointers, the allocated stacks, and the identity of the next one. (co_ctx_factory.cpp:15-45, co_stack_factory.cpp:11-43.) -/
structure State where
  l : Life.State
  stk : Nat → Stk
  live : List Nat
  nxt : Nat

/-- A new env. (Concerns co_env.cpp:53-476, co_ctx_factory.cpp:15-45.) -/
def State.init : State := ⟨Life.State.init, fun _ => .null, [], 0⟩

/-- Events: those of the env; a stack was allocated for `c`; it was freed; a stack that is not allocated was freed; the shared
stack was freed by a restore; a coroutine that is not on the shared stack was saved as if it were. (Concerns co_env.cpp:53-476, co_ctx_factory.cpp:15-45.) -/
inductive Ev
  | life (e : Life.Ev)
  | alloc (c i : Nat)
  | free (i : Nat)
  | badFree (i : Nat)
  | freeShared
  | badSave (c : Nat)
deriving DecidableEq, Repr

/-- Point `c` to `k`. (Concerns co_env.cpp:53-476, co_ctx_factory.cpp:15-45.) -/
def State.point (s : State) (c : Nat) (k : Stk) : State := { s with stk := fun d => if d = c then k else s.stk d }

/-- `create_stack` (co_stack_factory.cpp:11-34), for `c`. -/
def State.alloc (s : State) (c : Nat) : State × List Ev :=
  ({ s.point c (.own s.nxt) with live := s.nxt :: s.live, nxt := s.nxt + 1 }, [.alloc c s.nxt])

/-- `destroy_stack` (co_stack_factory.cpp:36-43) of the stack `k` points to. -/
def State.release (s : State) : Stk → State × List Ev
  | .null => (s, [])
  | .own i => if i ∈ s.live then ({ s with live := s.live.filter (· ≠ i) }, [.free i]) else (s, [.badFree i])
  | .sh => (s, [.freeShared])

/-- `destroy_ctx` (co_ctx_factory.cpp:34-45): the stack of a coroutine with the flag `SHARED_STACK` is not freed. -/
def State.destroy (s : State) (c : Nat) : State × List Ev := if (s.l.ctx c).shared then (s, []) else s.release (s.stk c)

/-- `save_shared_stack__` (co_env.cpp:452-458). -/
def State.save (s : State) : Option Nat → State × List Ev
  | some c =>
    if (s.l.ctx c).shared then
      let r := s.alloc c
      (r.1, (if s.stk c = .sh then [] else [.badSave c]) ++ r.2)
    else (s, [])
  | none => (s, [])

/-- `restore_shared_stack__` (co_env.cpp:460-476). -/
def State.restore (s : State) : Option Nat → State × List Ev
  | some c =>
    if (s.l.ctx c).shared then
      let r := s.release (s.stk c)
      (r.1.point c .sh, r.2)
    else (s, [])
  | none => (s, [])

/-- What a step of the env does to the stacks. `create_ctx` (co_ctx_factory.cpp:15-19) gives a coroutine a stack unless it is to run on the
shared one; `switch_shared_stack_ctx__` (co_env.cpp:367-379) saves and restores. -/
def eff (s : State) : Act → State × List Ev
  | .new c sh _ => if sh then (s.point c .null, []) else s.alloc c
  | .walk => match s.l.pc with
    | .walk (c :: _) => if (s.l.ctx c).st = .finished ∧ (s.l.ctx c).locked = false ∧ s.l.curr ≠ some c then s.destroy c else (s, [])
    | _ => (s, [])
  | .purge => match s.l.pc with
    | .purge (c :: _) => s.destroy c
    | _ => (s, [])
  | .switch _ =>
    if s.l.need then
      let r := s.save s.l.frm
      let q := r.1.restore s.l.to
      (q.1, r.2 ++ q.2)
    else (s, [])
  | _ => (s, [])

/-- One step. (co_ctx_factory.cpp:15-45, co_stack_factory.cpp:11-43, co_env.cpp:367-379, 452-476.) -/
def step (s : State) (a : Act) : Option (State × List Ev) :=
  (Life.step s.l a).map fun r => ({ (eff s a).1 with l := r.1 }, r.2.map .life ++ (eff s a).2)

/-! ## Invariants -/

/-- Proof device: the coroutine's stack has not been freed with it. (Concerns co_env.cpp:53-476, co_ctx_factory.cpp:15-45.) -/
def State.keeps (s : State) (c : Nat) : Prop := (s.l.ctx c).fate = .alive ∨ ((s.l.ctx c).fate = .freed ∧ (s.l.ctx c).shared = true)

attribute [local grind =] Life.State.put Life.State.destroy Life.State.isShared Life.State.mayPick Life.Pc.todo Life.Pc.over Life.Pc.purging
  Life.Ctx.ready State.point State.keeps

/-- Proof device: the part of the invariant about the env. (Concerns co_env.cpp:53-476, co_ctx_factory.cpp:15-45.) -/
structure Env (s : Life.State) : Prop where
  life : Life.Inv s
  ne : s.need = true → s.frm ≠ s.to
  curr : s.run = none → s.need = false → s.curr ≠ none → s.stop = true ∧ (s.pc = .user ∨ s.pc.over = true)
  tofin : s.need = true → ∀ c, s.to = some c → (s.ctx c).st ≠ .finished
  tocurr : s.need = true → s.to = none → s.curr ≠ none → s.stop = true ∧ (s.pc = .user ∨ s.pc.over = true)

theorem env_prepare {s : Life.State} {next : Option Nat} (h : Env s) (h' : Life.Inv (s.prepare next)) (hm : s.mayPick next = true)
    (hn : s.need = false) (hp : s.pc = .switch ∨ s.pc = .user ∧ s.run ≠ none) : Env (s.prepare next) := by
  obtain ⟨h1, h2, h3, h4, h5⟩ := h
  have hspec := Life.prepare_spec s next
  dsimp only at hspec
  obtain ⟨p1, p2, p3, p4, p5, p6⟩ := hspec
  have hr := h1.run
  refine ⟨h', ?_, ?_, ?_, ?_⟩
  · grind
  · rcases p6 with p6 | p6 | p6
    · grind
    · grind
    · grind
  · intro hx c hc
    rcases p6 with p6 | p6 | p6
    · grind
    · have := (p5 c).2.2.2.2
      grind
    · grind
  · grind

theorem env_step {s s' : Life.State} {a : Act} {es : List Life.Ev} (h : Env s) (hs : Life.step s a = some (s', es)) : Env s' := by
  have h' := Life.inv_step h.life hs
  cases a
  case switch next =>
    simp only [Life.step] at hs
    repeat' split at hs
    all_goals simp only [Option.some.injEq, Prod.mk.injEq, reduceCtorEq] at hs
    all_goals obtain ⟨rfl, rfl⟩ := hs
    · obtain ⟨h1, h2, h3, h4, h5⟩ := h
      refine ⟨h', by simp, ?_, by simp, by simp⟩
      grind
    · exact env_prepare h h' ‹_› (by grind) (by grind)
  case signal next =>
    simp only [Life.step] at hs
    repeat' split at hs
    all_goals simp only [Option.some.injEq, Prod.mk.injEq, reduceCtorEq] at hs
    all_goals obtain ⟨rfl, rfl⟩ := hs
    have := h.life.need
    exact env_prepare h h' (by grind) (by grind) (by grind)
  all_goals
    obtain ⟨h1, h2, h3, h4, h5⟩ := h
    have hr := h1.run
    have hnd := h1.need
    simp only [Life.step] at hs
    repeat' split at hs
    all_goals simp only [Option.some.injEq, Prod.mk.injEq, reduceCtorEq] at hs
    all_goals obtain ⟨rfl, rfl⟩ := hs
    all_goals refine ⟨h', ?_, ?_, ?_, ?_⟩
    all_goals try dsimp only [Life.State.put, Life.State.destroy]
    all_goals first | assumption | grind

/-- Proof device: the coroutines in `K` have allocated stacks, each its own. (Concerns co_env.cpp:53-476, co_ctx_factory.cpp:15-45.) -/
structure Mem (K : Nat → Prop) (stk : Nat → Stk) (live : List Nat) (nxt : Nat) : Prop where
  nd : live.Nodup
  lt : ∀ i ∈ live, i < nxt
  own : ∀ c i, K c → stk c = .own i → i ∈ live
  inj : ∀ c d i, K c → K d → stk c = .own i → stk d = .own i → c = d

theorem Mem.mono {K K' : Nat → Prop} {stk : Nat → Stk} {live : List Nat} {n : Nat} (h : Mem K stk live n) (hk : ∀ d, K' d → K d) :
    Mem K' stk live n :=
  ⟨h.nd, h.lt, fun c i h1 h2 => h.own c i (hk c h1) h2, fun c d i h1 h2 h3 h4 => h.inj c d i (hk c h1) (hk d h2) h3 h4⟩

theorem Mem.alloc {K K' : Nat → Prop} {stk : Nat → Stk} {live : List Nat} {n : Nat} (c : Nat) (h : Mem K stk live n)
    (hk : ∀ d, K' d → d = c ∨ K d) : Mem K' (fun d => if d = c then .own n else stk d) (n :: live) (n + 1) := by
  have hn : n ∉ live := fun h1 => absurd (h.lt n h1) (by omega)
  refine ⟨List.nodup_cons.2 ⟨hn, h.nd⟩, ?_, ?_, ?_⟩
  · intro i hi
    rcases List.mem_cons.1 hi with rfl | hi
    · omega
    · have := h.lt i hi; omega
  · intro d i h1 h2
    try dsimp only at h2
    split at h2
    · simp only [Stk.own.injEq] at h2; rw [h2]; exact List.mem_cons_self
    · rcases hk d h1 with h3 | h3
      · contradiction
      · exact List.mem_cons_of_mem _ (h.own d i h3 h2)
  · intro d e i h1 h2 h3 h4
    try dsimp only at h3 h4
    split at h3 <;> split at h4
    · rw [‹d = c›, ‹e = c›]
    · simp only [Stk.own.injEq] at h3
      rcases hk e h2 with h5 | h5
      · contradiction
      · have := h.own e i h5 h4
        rw [← h3] at this; exact absurd this hn
    · simp only [Stk.own.injEq] at h4
      rcases hk d h1 with h5 | h5
      · contradiction
      · have := h.own d i h5 h3
        rw [← h4] at this; exact absurd this hn
    · rcases hk d h1 with h5 | h5
      · contradiction
      · rcases hk e h2 with h6 | h6
        · contradiction
        · exact h.inj d e i h5 h6 h3 h4

theorem Mem.point {K K' : Nat → Prop} {stk : Nat → Stk} {live : List Nat} {n : Nat} (c : Nat) (k : Stk) (hkn : ∀ i, k ≠ .own i)
    (h : Mem K stk live n) (hk : ∀ d, K' d → d = c ∨ K d) : Mem K' (fun d => if d = c then k else stk d) live n := by
  refine ⟨h.nd, h.lt, ?_, ?_⟩
  · intro d i h1 h2
    try dsimp only at h2
    split at h2
    · exact absurd h2 (hkn i)
    · rcases hk d h1 with h3 | h3
      · contradiction
      · exact h.own d i h3 h2
  · intro d e i h1 h2 h3 h4
    try dsimp only at h3 h4
    split at h3
    · exact absurd h3 (hkn i)
    · split at h4
      · exact absurd h4 (hkn i)
      · rcases hk d h1 with h5 | h5
        · contradiction
        · rcases hk e h2 with h6 | h6
          · contradiction
          · exact h.inj d e i h5 h6 h3 h4

theorem Mem.drop {K K' : Nat → Prop} {stk : Nat → Stk} {live : List Nat} {n c i : Nat} (h : Mem K stk live n) (hc : K c)
    (hs : stk c = .own i) (hk : ∀ d, K' d → K d ∧ d ≠ c) : Mem K' stk (live.filter (· ≠ i)) n := by
  refine ⟨h.nd.filter _, fun j hj => h.lt j (List.mem_filter.1 hj).1, ?_, fun d e j h1 h2 => h.inj d e j (hk d h1).1 (hk e h2).1⟩
  intro d j h1 h2
  rw [List.mem_filter]
  refine ⟨h.own d j (hk d h1).1 h2, ?_⟩
  simp only [ne_eq, decide_not, Bool.not_eq_true', decide_eq_false_iff_not]
  rintro rfl
  exact (hk d h1).2 (h.inj d c j (hk d h1).1 hc h2 hs)

/-- Proof device. (Concerns co_env.cpp:53-476, co_ctx_factory.cpp:15-45.) -/
structure Inv (s : State) : Prop where
  env : Env s.l
  mem : Mem s.keeps s.stk s.live s.nxt
  own : ∀ c, (s.l.ctx c).shared = false → (s.l.ctx c).fate = .alive → ∃ i, s.stk c = .own i
  notsh : ∀ c, (s.l.ctx c).fate ≠ .unborn → s.stk c = .sh →
    (s.l.ctx c).shared = true ∧ (s.l.run = some c ∨ s.l.frm = some c ∧ s.l.need = true)
  runsh : ∀ c, s.l.run = some c → (s.l.ctx c).shared = true → s.stk c = .sh
  frmsh : ∀ c, s.l.need = true → s.l.frm = some c → (s.l.ctx c).shared = true → s.stk c = .sh
  leak : ∀ c, (s.l.ctx c).fate ≠ .unborn → (s.l.ctx c).shared = true → (s.l.ctx c).st = .finished → s.l.run ≠ some c →
    ¬ (s.l.need = true ∧ s.l.frm = some c) → ∃ i, s.stk c = .own i

theorem inv_init : Inv State.init := by
  refine ⟨⟨Life.inv_init, ?_, ?_, ?_, ?_⟩, ⟨?_, ?_, ?_, ?_⟩, ?_, ?_, ?_, ?_, ?_⟩ <;> simp [State.init, Life.State.init, State.keeps]

theorem inv_prepare {s : State} {next : Option Nat} (h : Inv s) (h' : Env (s.l.prepare next)) (hm : s.l.mayPick next = true)
    (hn : s.l.need = false) (hp : s.l.pc = .switch ∨ s.l.pc = .user ∧ s.l.run ≠ none) : Inv { s with l := s.l.prepare next } := by
  obtain ⟨h0, h1, h3, h6, h7, h8, h9⟩ := h
  have hspec := Life.prepare_spec s.l next
  dsimp only at hspec
  obtain ⟨p1, p2, p3, p4, p5, p6⟩ := hspec
  have hr := h0.life.run
  have hc := h0.curr
  have hcr : s.l.curr = s.l.run := by
    cases hx : s.l.run with
    | some c => exact hr c hx
    | none => grind
  have hshared : ∀ c, ((s.l.prepare next).ctx c).shared = (s.l.ctx c).shared := fun c => (p5 c).2.2.1
  have hfate : ∀ c, ((s.l.prepare next).ctx c).fate = (s.l.ctx c).fate := fun c => (p5 c).1
  have hfin : ∀ c, ((s.l.prepare next).ctx c).st = .finished ↔ (s.l.ctx c).st = .finished := fun c => (p5 c).2.2.2.2
  refine ⟨h', h1.mono ?_, ?_, ?_, ?_, ?_, ?_⟩
  all_goals simp only [State.keeps, hshared, hfate, hfin]
  · exact fun d h => h
  · exact h3
  · intro c hc1 hc2
    have := h6 c hc1 hc2
    rcases p6 with p6 | p6 | p6
    · grind
    · grind
    · grind
  · rcases p6 with p6 | p6 | p6
    · grind
    · grind
    · intro c hc1 hc2
      have h10 := p6.2.1
      rw [← p6.2.2.1, hc1] at h10
      simp [Life.State.isShared, hc2] at h10
  · rcases p6 with p6 | p6 | p6 <;> grind
  · intro c k1 k2 k3 k4 k5
    rcases p6 with p6 | p6 | p6
    · grind
    · grind
    · refine h9 c k1 k2 k3 ?_ (by simp [hn])
      intro hc1
      have h10 := p6.2.1
      rw [hcr, hc1] at h10
      simp [Life.State.isShared, k2] at h10

theorem inv_destroy {s : State} {c : Nat} {l' : Life.State} (h : Inv s) (h' : Env l') (hc : (s.l.ctx c).fate = .alive)
    (he : ∃ p, l' = { s.l.destroy c with pc := p }) : Inv { (s.destroy c).1 with l := l' } := by
  obtain ⟨p, rfl⟩ := he
  obtain ⟨h0, h1, h3, h6, h7, h8, h9⟩ := h
  cases hsh : (s.l.ctx c).shared with
  | true =>
    simp only [State.destroy, hsh, if_true]
    refine ⟨h', h1.mono ?_, ?_, ?_, ?_, ?_, ?_⟩
    all_goals try dsimp only [State.keeps, Life.State.destroy, Life.State.put]
    all_goals grind
  | false =>
    obtain ⟨i, hi⟩ := h3 c hsh hc
    have hlive := h1.own c i (.inl hc) hi
    simp only [State.destroy, hsh, Bool.false_eq_true, if_false, hi, State.release, hlive, if_true]
    refine ⟨h', h1.drop (c := c) (.inl hc) hi ?_, ?_, ?_, ?_, ?_, ?_⟩
    all_goals try dsimp only [State.keeps, Life.State.destroy, Life.State.put]
    all_goals grind

theorem save_spec {s : State} {K : Nat → Prop} (o : Option Nat) (h : Mem K s.stk s.live s.nxt) :
    Mem K (s.save o).1.stk (s.save o).1.live (s.save o).1.nxt ∧ (s.save o).1.l = s.l ∧
    (∀ c, o = some c → (s.l.ctx c).shared = true → ∃ i, (s.save o).1.stk c = .own i) ∧
    (∀ c, ¬ (o = some c ∧ (s.l.ctx c).shared = true) → (s.save o).1.stk c = s.stk c) := by
  cases o with
  | none => simpa [State.save] using h
  | some c =>
    cases hsh : (s.l.ctx c).shared with
    | false =>
      simp only [State.save, hsh, Bool.false_eq_true, if_false]
      refine ⟨h, by trivial, ?_, by simp⟩
      intro d hd; grind
    | true =>
      simp only [State.save, hsh, if_true, State.alloc, State.point]
      refine ⟨h.alloc c fun d hd => .inr hd, by trivial, ?_, ?_⟩
      · intro d hd _; exact ⟨s.nxt, by grind⟩
      · intro d hd; grind

theorem restore_spec {s : State} {K : Nat → Prop} (o : Option Nat) (h : Mem K s.stk s.live s.nxt)
    (ho : ∀ c, o = some c → (s.l.ctx c).shared = true → K c ∧ s.stk c ≠ .sh) :
    Mem K (s.restore o).1.stk (s.restore o).1.live (s.restore o).1.nxt ∧ (s.restore o).1.l = s.l ∧
    (∀ c, o = some c → (s.l.ctx c).shared = true → (s.restore o).1.stk c = .sh) ∧
    (∀ c, ¬ (o = some c ∧ (s.l.ctx c).shared = true) → (s.restore o).1.stk c = s.stk c) := by
  cases o with
  | none => simpa [State.restore] using h
  | some c =>
    cases hsh : (s.l.ctx c).shared with
    | false =>
      simp only [State.restore, hsh, Bool.false_eq_true, if_false]
      refine ⟨h, by trivial, ?_, by simp⟩
      intro d hd; grind
    | true =>
      obtain ⟨hk, hn⟩ := ho c rfl hsh
      cases hst : s.stk c with
      | sh => exact absurd hst hn
      | null =>
        simp only [State.restore, hsh, if_true, hst, State.release, State.point]
        refine ⟨h.point c .sh (by simp) fun d hd => .inr hd, by trivial, ?_, ?_⟩
        · intro d hd _; grind
        · intro d hd; grind
      | own i =>
        have hl := h.own c i hk hst
        simp only [State.restore, hsh, if_true, hst, State.release, State.point, hl]
        have h2 := h.drop (K' := fun d => K d ∧ d ≠ c) hk hst fun d hd => hd
        refine ⟨h2.point c .sh (by simp) fun d hd => ?_, by trivial, ?_, ?_⟩
        · by_cases hx : d = c
          · exact .inl hx
          · exact .inr ⟨hd, hx⟩
        · intro d hd _; grind
        · intro d hd; grind

theorem inv_step {s s' : State} {a : Act} {es : List Ev} (h : Inv s) (hs : step s a = some (s', es)) : Inv s' := by
  simp only [step, Option.map_eq_some_iff, Prod.mk.injEq] at hs
  obtain ⟨⟨l', fs⟩, hl, rfl, rfl⟩ := hs
  have h' := env_step h.env hl
  cases a
  case switch next =>
    simp only [Life.step] at hl
    repeat' split at hl
    all_goals simp only [Option.some.injEq, Prod.mk.injEq, reduceCtorEq] at hl
    all_goals obtain ⟨rfl, rfl⟩ := hl
    · rename_i hpc hn
      obtain ⟨h0, h1, h3, h6, h7, h8, h9⟩ := h
      have hne := h0.ne hn
      have hrn := h0.life.need hn
      have hto := h0.life.to hn
      have htf := h0.tofin hn
      have hfrm := h0.life.frm hn
      have hcur := h0.life.curr
      have hmem := h0.life.mem
      have hpu : s.l.pc.purging = false := by rw [hpc]; rfl
      simp only [eff, hn, if_true]
      obtain ⟨m1, m2, m3, m4⟩ := save_spec s.l.frm h1
      have hal : ∀ c, s.l.to = some c → (s.l.ctx c).fate = .alive := fun c hc => (hmem c).1 (hcur c (hto c hc).1 hpu)
      obtain ⟨q1, q2, q3, q4⟩ := restore_spec (s := (s.save s.l.frm).1) s.l.to m1 (by
        intro c hc hsh
        refine ⟨.inl (hal c hc), ?_⟩
        rw [m4 c (fun hx => hne (hx.1.trans hc.symm))]
        intro hx
        have := h6 c (hto c hc).2 hx
        rcases this.2 with h10 | h10
        · rw [hrn] at h10; simp at h10
        · exact hne (h10.1.trans hc.symm))
      rw [m2] at q3 q4
      refine ⟨h', q1, ?_, ?_, ?_, ?_, ?_⟩
      all_goals dsimp only
      · intro c hc1 hc2
        rw [q4 c (by grind), m4 c (by grind)]
        exact h3 c hc1 hc2
      · intro c hc1 hc2
        by_cases ht : s.l.to = some c ∧ (s.l.ctx c).shared = true
        · exact ⟨ht.2, .inl ht.1⟩
        · rw [q4 c ht] at hc2
          by_cases hf : s.l.frm = some c ∧ (s.l.ctx c).shared = true
          · obtain ⟨i, hi⟩ := m3 c hf.1 hf.2
            rw [hi] at hc2; simp at hc2
          · rw [m4 c hf] at hc2
            have := h6 c hc1 hc2
            grind
      · intro c hc1 hc2; exact q3 c hc1 hc2
      · simp
      · intro c k1 k2 k3 k4 k5
        rw [q4 c (by grind)]
        by_cases hf : s.l.frm = some c ∧ (s.l.ctx c).shared = true
        · exact m3 c hf.1 hf.2
        · rw [m4 c hf]
          exact h9 c k1 k2 k3 (by rw [hrn]; simp) (by grind)
    · rename_i hn hm
      have : (eff s (.switch next)).1 = s := by simp [eff, hn]
      rw [this]
      exact inv_prepare h h' hm (by simpa using hn) (.inl ‹_›)
  case signal next =>
    simp only [Life.step] at hl
    repeat' split at hl
    all_goals simp only [Option.some.injEq, Prod.mk.injEq, reduceCtorEq] at hl
    all_goals obtain ⟨rfl, rfl⟩ := hl
    rename_i hm
    have hne := h.env.life.need
    exact inv_prepare h h' hm.2.2 (by grind) (.inr ⟨hm.1, hm.2.1⟩)
  case new c sh hh =>
    obtain ⟨h0, h1, h3, h6, h7, h8, h9⟩ := h
    have hmem := h0.life.mem
    have hrun := h0.life.run
    have hcur := h0.life.curr
    have hto := h0.life.to
    have hfrm := h0.life.frm
    have hov := h0.life.over
    have hpur : s.l.pc.purging = true → s.l.pc.over = true := by cases s.l.pc <;> simp [Life.Pc.purging, Life.Pc.over]
    simp only [Life.step] at hl
    split at hl
    case isFalse => simp at hl
    rename_i hu
    simp only [Option.some.injEq, Prod.mk.injEq] at hl
    obtain ⟨rfl, rfl⟩ := hl
    have hcn : s.l.run ≠ some c := by
      intro hr
      have := hcur c (hrun c hr)
      cases hx : s.l.pc.purging with
      | false => rw [hmem] at this; have := this hx; rw [hu] at this; simp at this
      | true => have := hov (hpur hx); rw [hr] at this; simp at this
    have hfn : s.l.need = true → s.l.frm ≠ some c := fun hn hf => (hfrm hn c hf).1 hu
    cases sh
    · simp only [eff, State.alloc, State.point, Bool.false_eq_true, if_false]
      refine ⟨h', h1.alloc c ?_, ?_, ?_, ?_, ?_, ?_⟩
      all_goals try dsimp only [State.keeps, Life.State.put]
      case refine_2 =>
        intro d k1 k2
        by_cases hd : d = c
        · exact ⟨s.nxt, by simp [hd]⟩
        · rw [if_neg hd] at k1 k2 ⊢; exact h3 d k1 k2
      all_goals grind
    · simp only [eff, State.point, if_true]
      refine ⟨h', h1.point c .null (by simp) ?_, ?_, ?_, ?_, ?_, ?_⟩
      all_goals try dsimp only [State.keeps, Life.State.put]
      all_goals grind
  case walk =>
    have htodo := h.env.life.todo
    have hmem := h.env.life.mem
    simp only [Life.step] at hl
    split at hl
    · rename_i hpc
      simp only [Option.some.injEq, Prod.mk.injEq] at hl
      obtain ⟨rfl, rfl⟩ := hl
      simp only [eff, hpc]
      obtain ⟨h0, h1, h3, h6, h7, h8, h9⟩ := h
      exact ⟨h', h1, h3, h6, h7, h8, h9⟩
    · rename_i c cs hpc
      split at hl
      all_goals
        rename_i hif
        simp only [Option.some.injEq, Prod.mk.injEq] at hl
        obtain ⟨rfl, rfl⟩ := hl
        simp only [eff, hpc]
      · rw [if_pos hif]; exact inv_destroy h h' ((hmem c).1 (htodo c (by rw [hpc]; exact List.mem_cons_self))) ⟨_, rfl⟩
      · rw [if_neg hif]
        obtain ⟨h0, h1, h3, h6, h7, h8, h9⟩ := h
        exact ⟨h', h1, h3, h6, h7, h8, h9⟩
    · simp at hl
  case purge =>
    have htodo := h.env.life.todo
    have hmem := h.env.life.mem
    simp only [Life.step] at hl
    split at hl
    · rename_i hpc
      simp only [Option.some.injEq, Prod.mk.injEq] at hl
      obtain ⟨rfl, rfl⟩ := hl
      simp only [eff, hpc]
      obtain ⟨h0, h1, h3, h6, h7, h8, h9⟩ := h
      exact ⟨h', h1, h3, h6, h7, h8, h9⟩
    · rename_i c cs hpc
      simp only [Option.some.injEq, Prod.mk.injEq] at hl
      obtain ⟨rfl, rfl⟩ := hl
      simp only [eff, hpc]
      exact inv_destroy h h' ((hmem c).1 (htodo c (by rw [hpc]; exact List.mem_cons_self))) ⟨_, rfl⟩
    · simp at hl
  all_goals
    simp only [eff]
    obtain ⟨h0, h1, h3, h6, h7, h8, h9⟩ := h
    have hmem := h0.life.mem
    have hrun := h0.life.run
    simp only [Life.step] at hl
    repeat' split at hl
    all_goals simp only [Option.some.injEq, Prod.mk.injEq, reduceCtorEq] at hl
    all_goals obtain ⟨rfl, rfl⟩ := hl
    all_goals refine ⟨h', h1.mono ?_, ?_, ?_, ?_, ?_, ?_⟩
    all_goals try dsimp only [Life.State.put, Life.State.destroy, State.keeps]
    all_goals first | assumption | grind

/-! ## The history of allocations -/

/-- Proof device: what is freed was allocated before. (Concerns co_env.cpp:53-476, co_ctx_factory.cpp:15-45.) -/
def Before (tr : List Ev) : Prop := ∀ i pre post, tr = pre ++ Ev.free i :: post → ∃ c, Ev.alloc c i ∈ pre

theorem Before.append {tr es : List Ev} (h : Before tr) (he : ∀ i, Ev.free i ∈ es → ∃ c, Ev.alloc c i ∈ tr) : Before (tr ++ es) := by
  intro i pre post hp
  rcases List.append_eq_append_iff.1 hp with ⟨l, rfl, h2⟩ | ⟨l, h1, h2⟩
  · obtain ⟨c, hc⟩ := he i (by rw [h2]; simp)
    exact ⟨c, List.mem_append_left _ hc⟩
  · cases l with
    | nil =>
      obtain ⟨c, hc⟩ := he i (by rw [← List.nil_append es, ← h2]; exact List.mem_cons_self)
      exact ⟨c, by simpa [h1] using hc⟩
    | cons e l =>
      simp only [List.cons_append, List.cons.injEq] at h2
      exact h i pre l (by rw [h1, h2.1])

/-- Proof device: what the events say about the allocated stacks. (Concerns co_env.cpp:53-476, co_ctx_factory.cpp:15-45.) -/
structure Led (stk : Nat → Stk) (live : List Nat) (nxt : Nat) (tr : List Ev) : Prop where
  lt : ∀ c i, Ev.alloc c i ∈ tr → i < nxt
  live : ∀ i, i ∈ live ↔ (∃ c, Ev.alloc c i ∈ tr) ∧ Ev.free i ∉ tr
  freed : ∀ i, Ev.free i ∈ tr → ∃ c, Ev.alloc c i ∈ tr
  before : Before tr
  once : ∀ i, tr.count (.free i) ≤ 1
  one : ∀ c d i, Ev.alloc c i ∈ tr → Ev.alloc d i ∈ tr → c = d
  own : ∀ c i, stk c = .own i → Ev.alloc c i ∈ tr
  bad : ∀ e ∈ tr, (∀ i, e ≠ .badFree i) ∧ e ≠ .freeShared ∧ ∀ c, e ≠ .badSave c

theorem Led.life {stk : Nat → Stk} {live : List Nat} {nxt : Nat} {tr : List Ev} (es : List Life.Ev) (h : Led stk live nxt tr) :
    Led stk live nxt (tr ++ es.map .life) := by
  have ha : ∀ c i, Ev.alloc c i ∈ tr ++ es.map .life ↔ Ev.alloc c i ∈ tr := by intro c i; simp
  have hf : ∀ i, Ev.free i ∈ tr ++ es.map .life ↔ Ev.free i ∈ tr := by intro i; simp
  refine ⟨?_, ?_, ?_, h.before.append (by simp), ?_, ?_, ?_, ?_⟩
  · intro c i hi; exact h.lt c i ((ha c i).1 hi)
  · intro i; rw [h.live]; simp only [ha, hf]
  · intro i hi
    obtain ⟨c, hc⟩ := h.freed i ((hf i).1 hi)
    exact ⟨c, (ha c i).2 hc⟩
  · intro i
    rw [List.count_append, List.count_eq_zero_of_not_mem (l := es.map Ev.life) (by simp)]
    exact h.once i
  · intro c d i h1 h2; exact h.one c d i ((ha c i).1 h1) ((ha d i).1 h2)
  · intro c i hi; rw [ha]; exact h.own c i hi
  · intro e he
    rcases List.mem_append.1 he with he | he
    · exact h.bad e he
    · obtain ⟨x, _, rfl⟩ := List.mem_map.1 he; simp

theorem Led.alloc {stk : Nat → Stk} {live : List Nat} {nxt : Nat} {tr : List Ev} (c : Nat) (h : Led stk live nxt tr) :
    Led (fun d => if d = c then .own nxt else stk d) (nxt :: live) (nxt + 1) (tr ++ [.alloc c nxt]) := by
  have hfresh : ∀ d, Ev.alloc d nxt ∉ tr := fun d hd => absurd (h.lt d nxt hd) (by omega)
  have hfree : Ev.free nxt ∉ tr := fun hx => by
    obtain ⟨d, hd⟩ := h.freed nxt hx
    exact hfresh d hd
  refine ⟨?_, ?_, ?_, h.before.append (by simp), ?_, ?_, ?_, ?_⟩
  · intro d i hi
    rcases List.mem_append.1 hi with hi | hi
    · have := h.lt d i hi; omega
    · simp at hi; omega
  · intro i
    simp only [List.mem_cons, h.live, List.mem_append, List.not_mem_nil, or_false, reduceCtorEq, Ev.alloc.injEq]
    grind
  · intro i hi
    simp only [List.mem_append, List.mem_singleton, reduceCtorEq, or_false] at hi
    obtain ⟨d, hd⟩ := h.freed i hi
    exact ⟨d, List.mem_append_left _ hd⟩
  · intro i
    have := h.once i
    rw [List.count_append, List.count_eq_zero_of_not_mem (l := [Ev.alloc c nxt]) (by simp)]
    exact this
  · intro d e i h1 h2
    simp only [List.mem_append, List.mem_singleton, Ev.alloc.injEq] at h1 h2
    have := h.one d e i
    grind
  · intro d i hi
    split at hi
    · simp only [Stk.own.injEq] at hi
      rw [‹d = c›, hi]; simp
    · exact List.mem_append_left _ (h.own d i hi)
  · intro e he
    rcases List.mem_append.1 he with he | he
    · exact h.bad e he
    · simp at he; subst he; simp

theorem Led.free {stk : Nat → Stk} {live : List Nat} {nxt i : Nat} {tr : List Ev} (hi : i ∈ live) (h : Led stk live nxt tr) :
    Led stk (live.filter (· ≠ i)) nxt (tr ++ [.free i]) := by
  have hl := (h.live i).1 hi
  refine ⟨?_, ?_, ?_, h.before.append (by simpa using hl.1), ?_, ?_, ?_, ?_⟩
  · intro d j hj
    simp only [List.mem_append, List.mem_singleton, reduceCtorEq, or_false] at hj
    exact h.lt d j hj
  · intro j
    simp only [List.mem_filter, h.live, List.mem_append, List.mem_singleton, reduceCtorEq, or_false, Ev.free.injEq, ne_eq, decide_not,
      Bool.not_eq_true', decide_eq_false_iff_not, not_or]
    grind
  · intro j hj
    simp only [List.mem_append, List.mem_singleton, Ev.free.injEq] at hj
    rcases hj with hj | rfl
    · obtain ⟨d, hd⟩ := h.freed j hj
      exact ⟨d, List.mem_append_left _ hd⟩
    · obtain ⟨d, hd⟩ := hl.1
      exact ⟨d, List.mem_append_left _ hd⟩
  · intro j
    have := h.once j
    rw [List.count_append]
    by_cases hj : j = i
    · subst hj
      rw [List.count_eq_zero_of_not_mem hl.2]; simp
    · rw [List.count_eq_zero_of_not_mem (l := [Ev.free i]) (by simpa using hj)]; exact this
  · intro d e j h1 h2
    simp only [List.mem_append, List.mem_singleton, reduceCtorEq, or_false] at h1 h2
    exact h.one d e j h1 h2
  · intro d j hj; exact List.mem_append_left _ (h.own d j hj)
  · intro e he
    rcases List.mem_append.1 he with he | he
    · exact h.bad e he
    · simp at he; subst he; simp

theorem Led.point {stk : Nat → Stk} {live : List Nat} {nxt : Nat} {tr : List Ev} (c : Nat) (k : Stk) (hk : ∀ i, k ≠ .own i)
    (h : Led stk live nxt tr) : Led (fun d => if d = c then k else stk d) live nxt tr := by
  refine ⟨h.lt, h.live, h.freed, h.before, h.once, h.one, ?_, h.bad⟩
  intro d i hi
  split at hi
  · exact absurd hi (hk i)
  · exact h.own d i hi

/-- Proof device. (Concerns co_env.cpp:53-476, co_ctx_factory.cpp:15-45.) -/
def State.led (s : State) (tr : List Ev) : Prop := Led s.stk s.live s.nxt tr

theorem led_destroy {s : State} {c : Nat} {tr : List Ev} (h : Inv s) (hc : (s.l.ctx c).fate = .alive) (hl : s.led tr) :
    (s.destroy c).1.led (tr ++ (s.destroy c).2) := by
  cases hsh : (s.l.ctx c).shared with
  | true => simpa [State.destroy, hsh] using hl
  | false =>
    obtain ⟨i, hi⟩ := h.own c hsh hc
    have hlive := h.mem.own c i (.inl hc) hi
    simp only [State.destroy, hsh, Bool.false_eq_true, if_false, hi, State.release, hlive, if_true]
    exact Led.free hlive hl

theorem led_save {s : State} {o : Option Nat} {tr : List Ev} (hl : s.led tr)
    (ho : ∀ c, o = some c → (s.l.ctx c).shared = true → s.stk c = .sh) : (s.save o).1.led (tr ++ (s.save o).2) := by
  cases o with
  | none => simpa [State.save] using hl
  | some c =>
    cases hsh : (s.l.ctx c).shared with
    | false => simpa [State.save, hsh] using hl
    | true =>
      simp only [State.save, hsh, if_true, State.alloc, State.point, ho c rfl hsh, List.nil_append]
      exact Led.alloc c hl

theorem led_restore {s : State} {K : Nat → Prop} {o : Option Nat} {tr : List Ev} (hl : s.led tr) (h : Mem K s.stk s.live s.nxt)
    (ho : ∀ c, o = some c → (s.l.ctx c).shared = true → K c ∧ s.stk c ≠ .sh) : (s.restore o).1.led (tr ++ (s.restore o).2) := by
  cases o with
  | none => simpa [State.restore] using hl
  | some c =>
    cases hsh : (s.l.ctx c).shared with
    | false => simpa [State.restore, hsh] using hl
    | true =>
      obtain ⟨hk, hn⟩ := ho c rfl hsh
      cases hst : s.stk c with
      | sh => exact absurd hst hn
      | null =>
        simp only [State.restore, hsh, if_true, hst, State.release, State.point, List.append_nil]
        exact Led.point c .sh (by simp) hl
      | own i =>
        have hlv := h.own c i hk hst
        simp only [State.restore, hsh, if_true, hst, State.release, State.point, hlv]
        exact Led.point c .sh (by simp) (Led.free hlv hl)

/-- Proof device. -/
theorem led_step {s s' : State} {a : Act} {es tr : List Ev} (h : Inv s) (hl : s.led tr) (hs : step s a = some (s', es)) :
    s'.led (tr ++ es) := by
  simp only [step, Option.map_eq_some_iff, Prod.mk.injEq] at hs
  obtain ⟨⟨l', fs⟩, hlf, rfl, rfl⟩ := hs
  have hl1 : s.led (tr ++ fs.map .life) := Led.life fs hl
  rw [← List.append_assoc]
  show (eff s a).1.led _
  cases a
  case switch next =>
    simp only [eff]
    split
    · rename_i hn
      have hto := h.env.life.to hn
      have hpu : s.l.pc.purging = false := by
        simp only [Life.step] at hlf
        split at hlf
        · rename_i hpc; rw [hpc]; rfl
        · simp at hlf
      have hsv := led_save (o := s.l.frm) hl1 fun c hc hsh => h.frmsh c hn hc hsh
      obtain ⟨m1, m2, m3, m4⟩ := save_spec s.l.frm h.mem
      rw [← List.append_assoc]
      refine led_restore (s := (s.save s.l.frm).1) hsv m1 ?_
      intro c hc hsh
      rw [m2] at hsh
      refine ⟨.inl ((h.env.life.mem c).1 (h.env.life.curr c (hto c hc).1 hpu)), ?_⟩
      rw [m4 c (fun hx => h.env.ne hn (hx.1.trans hc.symm))]
      intro hx
      rcases (h.notsh c (hto c hc).2 hx).2 with h10 | h10
      · rw [h.env.life.need hn] at h10; simp at h10
      · exact h.env.ne hn (h10.1.trans hc.symm)
    · simpa using hl1
  case new c sh hh =>
    cases sh
    · simp only [eff, Bool.false_eq_true, if_false, State.alloc, State.point]
      exact Led.alloc c hl1
    · simp only [eff, if_true, State.point, List.append_nil]
      exact Led.point c .null (by simp) hl1
  case walk =>
    simp only [eff]
    split
    · rename_i c cs hpc
      split
      · exact led_destroy h ((h.env.life.mem c).1 (h.env.life.todo c (by rw [hpc]; exact List.mem_cons_self))) hl1
      · simpa using hl1
    · simpa using hl1
  case purge =>
    simp only [eff]
    split
    · rename_i c cs hpc
      exact led_destroy h ((h.env.life.mem c).1 (h.env.life.todo c (by rw [hpc]; exact List.mem_cons_self))) hl1
    · simpa using hl1
  all_goals simpa [eff] using hl1

theorem inv_runs {as : List Act} {s : State} {tr : List Ev} (h : runs step State.init as = some (s, tr)) : Inv s ∧ s.led tr := by
  have := runs_hist (step := step) (fun s tr => Inv s ∧ s.led tr)
    (fun s a s' es tr hI hs => ⟨inv_step hI.1 hs, led_step hI.1 hI.2 hs⟩) as State.init s tr [] ⟨inv_init, by
      constructor <;> simp [State.init, Before]⟩ h
  simpa using this

/-! ## C87 -/

/-- Proof device: only the stack of a coroutine that is not destroyed is ever freed. -/
theorem free_alive {s s' : State} {a : Act} {es : List Ev} {i : Nat} (h : Inv s) (hs : step s a = some (s', es)) (hi : Ev.free i ∈ es) :
    ∃ d, (s.l.ctx d).fate = .alive ∧ s.stk d = .own i := by
  simp only [step, Option.map_eq_some_iff, Prod.mk.injEq] at hs
  obtain ⟨⟨l', fs⟩, hlf, rfl, rfl⟩ := hs
  simp only [List.mem_append, List.mem_map, reduceCtorEq, and_false, exists_false, false_or] at hi
  have hrel : ∀ (t : State) k, Ev.free i ∈ (t.release k).2 → k = .own i := by
    intro t k hk
    cases k with
    | null => simp [State.release] at hk
    | sh => simp [State.release] at hk
    | own j =>
      simp only [State.release] at hk
      split at hk
      · simp at hk; rw [hk]
      · simp at hk
  have hdes : ∀ c, (s.l.ctx c).fate = .alive → Ev.free i ∈ (s.destroy c).2 → ∃ d, (s.l.ctx d).fate = .alive ∧ s.stk d = .own i := by
    intro c hc hx
    simp only [State.destroy] at hx
    split at hx
    · simp at hx
    · exact ⟨c, hc, hrel _ _ hx⟩
  cases a
  case switch next =>
    simp only [eff] at hi
    split at hi
    · rename_i hn
      have hto := h.env.life.to hn
      have hpu : s.l.pc.purging = false := by
        simp only [Life.step] at hlf
        split at hlf
        · rename_i hpc; rw [hpc]; rfl
        · simp at hlf
      obtain ⟨m1, m2, m3, m4⟩ := save_spec s.l.frm h.mem
      rcases List.mem_append.1 hi with hi | hi
      · cases hf : s.l.frm with
        | none => simp [State.save, hf] at hi
        | some c =>
          simp only [State.save, hf, State.alloc] at hi
          repeat' split at hi
          all_goals simp at hi
      · cases hf : s.l.to with
        | none => simp [State.restore, hf] at hi
        | some c =>
          simp only [hf] at hi
          simp only [State.restore] at hi
          split at hi
          · have h2 := hrel _ _ hi
            rw [m4 c (fun hx => h.env.ne hn (hx.1.trans hf.symm))] at h2
            exact ⟨c, (h.env.life.mem c).1 (h.env.life.curr c (hto c hf).1 hpu), h2⟩
          · simp at hi
    · simp at hi
  case new c sh hh =>
    cases sh <;> simp [eff, State.alloc] at hi
  case walk =>
    simp only [eff] at hi
    split at hi
    · rename_i c cs hpc
      split at hi
      · exact hdes c ((h.env.life.mem c).1 (h.env.life.todo c (by rw [hpc]; exact List.mem_cons_self))) hi
      · simp at hi
    · simp at hi
  case purge =>
    simp only [eff] at hi
    split at hi
    · rename_i c cs hpc
      exact hdes c ((h.env.life.mem c).1 (h.env.life.todo c (by rw [hpc]; exact List.mem_cons_self))) hi
    · simp at hi
  all_goals simp [eff] at hi

/-- **C87, the whole history.** No stack is freed twice, none is freed that was not allocated, the stack of the env is never freed by a
coroutine, and what is copied away from the shared stack is what lies on it. -/
theorem C87_freed_at_most_once {as : List Act} {s : State} {tr : List Ev} (h : runs step State.init as = some (s, tr)) :
    (∀ i, tr.count (.free i) ≤ 1) ∧
    (∀ i pre post, tr = pre ++ .free i :: post → ∃ c, Ev.alloc c i ∈ pre) ∧
    (∀ c d i, Ev.alloc c i ∈ tr → Ev.alloc d i ∈ tr → c = d) ∧
    (∀ i, Ev.badFree i ∉ tr) ∧ Ev.freeShared ∉ tr ∧ ∀ c, Ev.badSave c ∉ tr := by
  have hl := (inv_runs h).2
  refine ⟨hl.once, hl.before, hl.one, fun i hi => (hl.bad _ hi).1 i rfl, fun hi => (hl.bad _ hi).2.1 rfl, fun c hi => (hl.bad _ hi).2.2 c rfl⟩

/-- **C87, the present.** A coroutine that is not destroyed and is not to run on the shared stack has a stack; the stack of a coroutine
that is not destroyed is allocated, not freed, and no other coroutine has it; at most one coroutine is on the shared stack. -/
theorem C87_stack_is_its_own {as : List Act} {s : State} {tr : List Ev} (h : runs step State.init as = some (s, tr)) :
    (∀ c, (s.l.ctx c).fate = .alive → (s.l.ctx c).shared = false → ∃ i, s.stk c = .own i) ∧
    (∀ c i, (s.l.ctx c).fate = .alive → s.stk c = .own i →
      Ev.alloc c i ∈ tr ∧ Ev.free i ∉ tr ∧ ∀ d, (s.l.ctx d).fate = .alive → s.stk d = .own i → d = c) ∧
    (∀ c d, (s.l.ctx c).fate = .alive → (s.l.ctx d).fate = .alive → s.stk c = .sh → s.stk d = .sh → c = d) := by
  obtain ⟨hi, hl⟩ := inv_runs h
  refine ⟨fun c h1 h2 => hi.own c h2 h1, ?_, ?_⟩
  · intro c i hc hs
    have := (hl.live i).1 (hi.mem.own c i (.inl hc) hs)
    exact ⟨hl.own c i hs, this.2, fun d hd hx => hi.mem.inj d c i (.inl hd) (.inl hc) hx hs⟩
  · intro c d hc hd hcs hds
    have h1 := hi.notsh c (by simp [hc]) hcs
    have h2 := hi.notsh d (by simp [hd]) hds
    have := hi.env.life.need
    grind

/-- Proof device: the stack `i` of the destroyed coroutine `c` is out of reach. (Concerns co_env.cpp:53-476, co_ctx_factory.cpp:15-45.) -/
structure Lost (c i : Nat) (s : State) : Prop where
  inv : Inv s
  fate : (s.l.ctx c).fate = .freed
  shared : (s.l.ctx c).shared = true
  stk : s.stk c = .own i
  frm : ¬ (s.l.need = true ∧ s.l.frm = some c)

theorem lost_life {s s' : Life.State} {a : Act} {es : List Life.Ev} {c : Nat} (h : Life.Inv s) (hs : Life.step s a = some (s', es))
    (hf : (s.ctx c).fate = .freed) (hn : ¬ (s.need = true ∧ s.frm = some c)) :
    (s'.ctx c).fate = .freed ∧ (s'.ctx c).shared = (s.ctx c).shared ∧ ¬ (s'.need = true ∧ s'.frm = some c) := by
  have hmem := h.mem
  have hcurr := h.curr
  have hneed := h.need
  have hspec := fun n => Life.prepare_spec s n
  dsimp only at hspec
  cases a
  all_goals
    simp only [Life.step] at hs
    repeat' split at hs
    all_goals simp only [Option.some.injEq, Prod.mk.injEq, reduceCtorEq] at hs
    all_goals obtain ⟨rfl, rfl⟩ := hs
    all_goals try dsimp only [Life.State.put, Life.State.destroy]
    all_goals grind

theorem lost_step {s s' : State} {a : Act} {es : List Ev} {c i : Nat} (h : Lost c i s) (hs : step s a = some (s', es)) :
    Lost c i s' ∧ Ev.free i ∉ es := by
  have hne : Ev.free i ∉ es := fun hx => by
    obtain ⟨d, hd, hdi⟩ := free_alive h.inv hs hx
    have := h.inv.mem.inj c d i (.inr ⟨h.fate, h.shared⟩) (.inl hd) h.stk hdi
    rw [← this, h.fate] at hd
    simp at hd
  refine ⟨?_, hne⟩
  have h' := inv_step h.inv hs
  simp only [step, Option.map_eq_some_iff, Prod.mk.injEq] at hs
  obtain ⟨⟨l', fs⟩, hlf, rfl, rfl⟩ := hs
  obtain ⟨q1, q2, q3⟩ := lost_life h.inv.env.life hlf h.fate h.frm
  refine ⟨h', q1, q2.trans h.shared, ?_, q3⟩
  show (eff s a).1.stk c = .own i
  have hrel : ∀ (t : State) k, (t.release k).1.stk = t.stk := by
    intro t k
    cases k <;> simp only [State.release]
    split <;> rfl
  have hdes : ∀ d, (s.destroy d).1.stk c = .own i := by
    intro d
    simp only [State.destroy]
    split
    · exact h.stk
    · rw [hrel]; exact h.stk
  cases a
  case switch next =>
    simp only [eff]
    split
    · rename_i hn
      have hto := h.inv.env.life.to hn
      have hpu : s.l.pc.purging = false := by
        simp only [Life.step] at hlf
        split at hlf
        · rename_i hpc; rw [hpc]; rfl
        · simp at hlf
      obtain ⟨m1, m2, m3, m4⟩ := save_spec s.l.frm h.inv.mem
      have hsv : (s.save s.l.frm).1.stk c = .own i := by
        rw [m4 c (fun hx => h.frm ⟨hn, hx.1⟩)]; exact h.stk
      cases hf : s.l.to with
      | none => exact hsv
      | some d =>
        have hd : c ≠ d := by
          rintro rfl
          have := (h.inv.env.life.mem c).1 (h.inv.env.life.curr c (hto c hf).1 hpu)
          rw [h.fate] at this; simp at this
        simp only [State.restore]
        split
        · simp only [State.point, hrel, hd, if_false]; exact hsv
        · exact hsv
    · exact h.stk
  case new d sh hh =>
    have hd : c ≠ d := by
      rintro rfl
      simp [Life.step, h.fate] at hlf
    cases sh <;> simp [eff, State.alloc, State.point, hd, h.stk]
  case walk =>
    simp only [eff]
    split
    · split
      · exact hdes _
      · exact h.stk
    · exact h.stk
  case purge =>
    simp only [eff]
    split
    · exact hdes _
    · exact h.stk
  all_goals exact h.stk

/-- **C87.** The stack of a coroutine that has one of its own is freed when the coroutine is destroyed: with the object, once. -/
theorem C87_freed_with_coroutine_partial {as : List Act} {s s' : State} {tr es : List Ev} {a : Act} {c : Nat}
    (h : runs step State.init as = some (s, tr)) (hs : step s a = some (s', es)) (hc : (s.l.ctx c).shared = false)
    (hd : Ev.life (.destroy c) ∈ es) :
    ∃ i, es = [.life (.destroy c), .free i] ∧ Ev.alloc c i ∈ tr ∧ Ev.free i ∉ tr := by
  obtain ⟨hi, hl⟩ := inv_runs h
  have key : ∀ fs (l' : Life.State), (s.l.ctx c).fate = .alive → fs = s.l.use [some c] ++ [.destroy c] →
      ∃ i, fs.map Ev.life ++ (s.destroy c).2 = [.life (.destroy c), .free i] ∧ Ev.alloc c i ∈ tr ∧ Ev.free i ∉ tr := by
    intro fs l' hal hfs
    obtain ⟨i, hst⟩ := hi.own c hc hal
    have hlive := hi.mem.own c i (.inl hal) hst
    refine ⟨i, ?_, hl.own c i hst, ((hl.live i).1 hlive).2⟩
    simp [hfs, Life.State.use, hal, State.destroy, hc, hst, State.release, hlive]
  have huse : ∀ l d, Life.Ev.destroy d ∉ s.l.use l := by
    intro l d hx
    obtain ⟨e, he, _⟩ := (Life.use_mem s.l l _).1 hx
    simp at he
  simp only [step, Option.map_eq_some_iff, Prod.mk.injEq] at hs
  obtain ⟨⟨l', fs⟩, hlf, rfl, rfl⟩ := hs
  have hd' : Life.Ev.destroy c ∈ fs := by
    rcases List.mem_append.1 hd with hd | hd
    · simpa using hd
    · exfalso
      have hal : ∀ (t : State) o, Ev.life (.destroy c) ∉ (t.save o).2 := by
        intro t o
        cases o <;> simp only [State.save, State.alloc]
        · simp
        · repeat' split
          all_goals simp
      have hrl : ∀ (t : State) k, Ev.life (.destroy c) ∉ (t.release k).2 := by
        intro t k
        cases k <;> simp only [State.release]
        · simp
        · split <;> simp
        · simp
      have hrs : ∀ (t : State) o, Ev.life (.destroy c) ∉ (t.restore o).2 := by
        intro t o
        cases o <;> simp only [State.restore]
        · simp
        · split
          · exact hrl _ _
          · simp
      have hds : ∀ e, Ev.life (.destroy c) ∉ (s.destroy e).2 := by
        intro e
        simp only [State.destroy]
        split
        · simp
        · exact hrl _ _
      cases a <;> simp only [eff] at hd
      all_goals try (simp at hd; done)
      all_goals repeat' split at hd
      all_goals first
        | (simp [State.alloc] at hd; done)
        | exact hds _ hd
        | exact (List.mem_append.1 hd).elim (hal _ _) (hrs _ _)
  cases a
  all_goals
    simp only [Life.step] at hlf
    repeat' split at hlf
    all_goals simp only [Option.some.injEq, Prod.mk.injEq, reduceCtorEq] at hlf
    all_goals obtain ⟨rfl, rfl⟩ := hlf
    all_goals try (simp [huse] at hd'; done)
  · rename_i d cs hpc hcond
    have : c = d := by simpa [huse] using hd'
    subst this
    simp only [eff, hpc]
    rw [if_pos hcond]
    exact key _ s.l ((hi.env.life.mem c).1 (hi.env.life.todo c (by rw [hpc]; exact List.mem_cons_self))) rfl
  · rename_i d cs hpc
    have : c = d := by simpa [huse] using hd'
    subst this
    simp only [eff, hpc]
    exact key _ s.l ((hi.env.life.mem c).1 (hi.env.life.todo c (by rw [hpc]; exact List.mem_cons_self))) rfl

/-- **C87 fails for coroutines on the shared stack.** When such a coroutine finishes and leaves the shared stack, its frames are copied to
a new stack; `destroy_ctx` does not free it, and nothing else ever does. -/
theorem C87_shared_stack_leaks {as : List Act} {s : State} {tr : List Ev} {c : Nat} (h : runs step State.init as = some (s, tr))
    (hf : (s.l.ctx c).fate = .freed) (hsh : (s.l.ctx c).shared = true) (hst : (s.l.ctx c).st = .finished)
    (hn : ¬ (s.l.need = true ∧ s.l.frm = some c)) :
    ∃ i, Ev.alloc c i ∈ tr ∧ ∀ bs s' tr', runs step s bs = some (s', tr') → Ev.free i ∉ tr ++ tr' := by
  obtain ⟨hi, hl⟩ := inv_runs h
  have hr : s.l.run ≠ some c := by
    intro hr
    have hpu : s.l.pc.purging = false := by
      cases hx : s.l.pc.purging with
      | false => rfl
      | true =>
        have := hi.env.life.over (by revert hx; cases s.l.pc <;> simp [Life.Pc.purging, Life.Pc.over])
        rw [hr] at this; simp at this
    have := (hi.env.life.mem c).1 (hi.env.life.curr c (hi.env.life.run c hr) hpu)
    rw [hf] at this; simp at this
  obtain ⟨i, hst'⟩ := hi.leak c (by simp [hf]) hsh hst hr hn
  have hlv := hi.mem.own c i (.inr ⟨hf, hsh⟩) hst'
  refine ⟨i, hl.own c i hst', ?_⟩
  intro bs s' tr' hb hx
  have hL : Lost c i s ∧ Ev.free i ∉ tr := ⟨⟨hi, hf, hsh, hst', hn⟩, ((hl.live i).1 hlv).2⟩
  have := runs_hist (step := step) (fun s tr => Lost c i s ∧ Ev.free i ∉ tr) (fun s a s' es tr hI hs => by
    obtain ⟨p, q⟩ := lost_step hI.1 hs
    exact ⟨p, fun hx => (List.mem_append.1 hx).elim hI.2 q⟩) bs s s' tr' tr hL hb
  exact this.2 hx

/-- The same for a suspended coroutine of the shared stack that is destroyed when the env stops. -/
theorem C87_suspended_shared_stack_leaks {as : List Act} {s : State} {tr : List Ev} {c i : Nat}
    (h : runs step State.init as = some (s, tr)) (hf : (s.l.ctx c).fate = .freed) (hsh : (s.l.ctx c).shared = true)
    (hs : s.stk c = .own i) (hn : ¬ (s.l.need = true ∧ s.l.frm = some c)) :
    Ev.alloc c i ∈ tr ∧ ∀ bs s' tr', runs step s bs = some (s', tr') → Ev.free i ∉ tr ++ tr' := by
  obtain ⟨hi, hl⟩ := inv_runs h
  have hlv := hi.mem.own c i (.inr ⟨hf, hsh⟩) hs
  refine ⟨hl.own c i hs, ?_⟩
  intro bs s' tr' hb hx
  have := runs_hist (step := step) (fun s tr => Lost c i s ∧ Ev.free i ∉ tr) (fun s a s' es tr hI hs => by
    obtain ⟨p, q⟩ := lost_step hI.1 hs
    exact ⟨p, fun hx => (List.mem_append.1 hx).elim hI.2 q⟩) bs s s' tr' tr ⟨⟨hi, hf, hsh, hs, hn⟩, ((hl.live i).1 hlv).2⟩ hb
  exact this.2 hx

/-- The events of a run. (Concerns co_env.cpp:53-476, co_ctx_factory.cpp:15-45.) -/
def events (as : List Act) : Option (List Ev) := (runs step State.init as).map (·.2)

/-- A coroutine with a stack of its own runs, finishes and is destroyed: its stack is freed. -/
example : events [.new 1 false false, .idle, .begin, .walk, .walk, .switch (some 1), .finish, .begin, .walk, .walk, .switch none,
    .idle, .begin, .walk] =
    some [.life (.new 1 false), .alloc 1 0, .life (.fin 1), .life (.destroy 1), .free 0] := by decide

/-- A coroutine with a handle on the shared stack: it is suspended, its frames go to stack 0; it goes on, stack 0 is freed; it finishes,
its frames go to stack 1; the handle is dropped and it is destroyed: stack 1 stays. -/
example : events [.new 1 true true, .idle, .begin, .walk, .walk, .switch (some 1), .idle, .begin, .walk, .walk, .switch none,
    .wait, .begin, .walk, .walk, .switch none, .idle, .begin, .walk, .walk, .switch none, .wake 1,
    .idle, .begin, .walk, .walk, .switch (some 1), .idle, .begin, .walk, .walk, .switch none,
    .finish, .begin, .walk, .walk, .switch none, .idle, .begin, .walk, .walk, .switch none, .drop 1, .idle, .begin, .walk] =
    some [.life (.new 1 true), .alloc 1 0, .free 0, .life (.fin 1), .alloc 1 1, .life (.drop 1), .life (.destroy 1)] := by decide

/-- It meets the hypotheses of `C87_shared_stack_leaks`. -/
example : ((runs step State.init [.new 1 true true, .idle, .begin, .walk, .walk, .switch (some 1), .idle, .begin, .walk, .walk,
    .switch none, .finish, .begin, .walk, .walk, .switch none, .idle, .begin, .walk, .walk, .switch none, .drop 1, .idle, .begin,
    .walk]).map fun r => ((r.1.l.ctx 1).fate, (r.1.l.ctx 1).shared, (r.1.l.ctx 1).st, r.1.l.need, r.1.live)) =
    some (.freed, true, .finished, false, [0]) := by decide

/-- The env stops while the coroutine is suspended. -/
example : ((runs step State.init [.new 1 true true, .idle, .begin, .walk, .walk, .switch (some 1), .idle, .begin, .walk, .walk,
    .switch none, .wait, .begin, .walk, .walk, .switch none, .idle, .begin, .walk, .walk, .switch none, .stop, .idle, .begin,
    .purge, .purge]).map fun r => (r.1.l.pc, (r.1.l.ctx 1).fate, (r.1.l.ctx 1).shared, r.1.stk 1, r.1.l.need, r.1.live)) =
    some (.ended, .freed, true, .own 0, false, [0]) := by rfl

end Verif.Stacks
