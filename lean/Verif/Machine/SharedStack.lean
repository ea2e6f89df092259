import Verif.Base.Lts

/-! # C74, C75: saving, restoring and shrinking stacks

Byte addressed memory. Addresses are natural numbers here: user space mappings lie far below 2^64, so the address arithmetic
of the modelled functions does not wrap. -/

namespace Verif.Machine.Shared

/-- Bytes. (Concerns co_env.cpp:52-475.) -/
abbrev Byte := BitVec 8
/-- Memory of the process. Simplification: all addresses are accessible. (Concerns co_env.cpp:52-475.) -/
abbrev Mem := Nat → Byte

/-- `memcpy`, for areas that do not overlap (`copies_disjoint` proves they never do). (Concerns co_env.cpp:52-475.) -/
def memcpy (m : Mem) (dst src n : Nat) : Mem := fun x => if dst ≤ x ∧ x < dst + n then m (src + (x - dst)) else m x

/-- The areas of `n` bytes at `a` and `k` bytes at `b` do not overlap. (Concerns co_env.cpp:52-475.) -/
def Apart (a n b k : Nat) : Prop := a + n ≤ b ∨ b + k ≤ a

instance (a n b k : Nat) : Decidable (Apart a n b k) := inferInstanceAs (Decidable (_ ∨ _))

/-- The shared stack of an environment (`co_env::create_shared_stack__`, co_env.cpp:52-55) and the eight bytes `_start`. -/
structure Cfg where
  base : Nat
  size : Nat
  start : Nat → Byte
  room : 8 ≤ size

/-- Stack top: `stack_top()` (source/cocpp/core/co_stack.cpp). -/
def Cfg.top (g : Cfg) : Nat := g.base + g.size

/-- State of the shared stack of one environment.
`sp c`: the stack pointer in `c`'s save area. `saved c`: the temporary stack holding `c`'s part of the shared stack
(`ctx->stack()` of a switched out coroutine), base and size. `occ`: the coroutine whose frames are on the shared stack;
`live`: it is running (otherwise it has been switched out and its stack is about to be saved). (co_env.cpp:367-386, co_ctx.h:63.) -/
structure State where
  mem : Mem
  known : Nat → Bool
  sp : Nat → Nat
  saved : Nat → Option (Nat × Nat)
  occ : Option Nat
  live : Bool

/-- Before the first switch no coroutine of this stack has run. (Concerns co_env.cpp:52-475.) -/
def State.init (m : Mem) : State := ⟨m, fun _ => false, fun _ => 0, fun _ => none, none, false⟩

/-- What can happen to the shared stack (co_env.cpp:367-386, 447-475). -/
inductive Act
  /-- `add_ctx` of a shared stack coroutine: `init_ctx(shared_stack__, ctx)` writes `_start` at the very top of the shared
  stack, whoever occupies it (co_env.cpp:58-78, co_vos_gcc_x86_64.cpp:98-107). -/
  | add (c : Nat)
  /-- The occupant runs. -/
  | run (c : Nat)
  /-- The occupant is switched out (to the idle coroutine) with stack pointer `sp`. -/
  | out (c sp : Nat)
  /-- Any other code: other coroutines on their own stacks, the idle coroutine, other threads. -/
  | other
  /-- `save_shared_stack__` (co_env.cpp:452-458) with temporary stack at `t`. -/
  | save (c t : Nat)
  /-- `restore_shared_stack__` (co_env.cpp:460-475) and the switch to `c`. -/
  | enter (c : Nat)

/-- One action. The contracts used: `mmap` returns an area that overlaps no live stack; code other than the occupant's does
not write the shared stack; nobody writes a temporary stack; the occupant does not write the word above its first frame
(its return address `_start`) and its stack pointer stays below it. (co_env.cpp:447-475.) -/
inductive Step (g : Cfg) : State → Act → State → Prop
  | add {s : State} {c : Nat} (h : s.known c = false) (h2 : s.saved c = none) (h3 : s.occ ≠ some c) :
      Step g s (.add c) { s with
        mem := fun x => if g.top - 8 ≤ x ∧ x < g.top then g.start (x - (g.top - 8)) else s.mem x
        known := upd s.known c true
        sp := upd s.sp c (g.top - 8) }
  | run {s : State} {c : Nat} {m : Mem} (h : s.occ = some c) (hl : s.live = true)
      (ht : ∀ d t n, s.saved d = some (t, n) → ∀ x, t ≤ x → x < t + n → m x = s.mem x)
      (hs : ∀ x, g.top - 8 ≤ x → x < g.top → m x = s.mem x) : Step g s (.run c) { s with mem := m }
  | out {s : State} {c sp : Nat} (h : s.occ = some c) (hl : s.live = true) (h1 : g.base ≤ sp) (h2 : sp + 8 ≤ g.top) :
      Step g s (.out c sp) { s with sp := upd s.sp c sp, live := false }
  | other {s : State} {m : Mem}
      (ht : ∀ d t n, s.saved d = some (t, n) → ∀ x, t ≤ x → x < t + n → m x = s.mem x)
      (hs : ∀ x, g.base ≤ x → x < g.top → m x = s.mem x) : Step g s .other { s with mem := m }
  | save {s : State} {c t : Nat} (h : s.occ = some c) (hl : s.live = false)
      (hf : Apart t (g.top - s.sp c) g.base g.size)
      (hd : ∀ d t' n', s.saved d = some (t', n') → Apart t (g.top - s.sp c) t' n') :
      Step g s (.save c t) { s with
        mem := memcpy s.mem t (s.sp c) (g.top - s.sp c)
        saved := upd s.saved c (some (t, g.top - s.sp c))
        occ := none }
  | enterNew {s : State} {c : Nat} (h : s.occ = none) (hk : s.known c = true) (hs : s.saved c = none) :
      Step g s (.enter c) { s with occ := some c, live := true }
  | enter {s : State} {c t n : Nat} (h : s.occ = none) (hs : s.saved c = some (t, n)) :
      Step g s (.enter c) { s with
        mem := memcpy s.mem (g.top - n) t n
        saved := upd s.saved c none
        occ := some c
        live := true }

/-- The bytes of `_start` are at the top of the area ending at `e`. (Concerns co_env.cpp:52-475.) -/
def Slot (g : Cfg) (m : Mem) (e : Nat) : Prop := ∀ i, i < 8 → m (e - 8 + i) = g.start i

/-- Proof device: the invariant. (Concerns co_env.cpp:52-475.) -/
structure Inv (g : Cfg) (s : State) : Prop where
  slot : ∀ c, s.known c = true → Slot g s.mem g.top
  occ : ∀ c, s.occ = some c → s.known c = true ∧ s.saved c = none
  spIn : ∀ c, s.occ = some c → s.live = false → g.base ≤ s.sp c ∧ s.sp c + 8 ≤ g.top
  sav : ∀ c t n, s.saved c = some (t, n) → s.known c = true ∧ n = g.top - s.sp c ∧ g.base ≤ s.sp c ∧ s.sp c + 8 ≤ g.top ∧
    Apart t n g.base g.size ∧ Slot g s.mem (t + n)
  two : ∀ c d t n t' n', s.saved c = some (t, n) → s.saved d = some (t', n') → c ≠ d → Apart t n t' n'

theorem inv_init (g : Cfg) (m : Mem) : Inv g (.init m) := by
  constructor <;> simp [State.init]

theorem inv_step {g : Cfg} {s s' : State} {a : Act} (h : Inv g s) (hs : Step g s a s') : Inv g s' := by
  have hr := g.room
  have ht : g.top = g.base + g.size := rfl
  cases hs with
  | @add c hk h2 h3 =>
    refine ⟨?_, ?_, ?_, ?_, ?_⟩
    · intro d _ i hi
      simp only
      rw [if_pos (by omega)]
      congr 1
      omega
    · intro d hd
      simp only [upd]
      have := h.occ d hd
      grind
    · intro d hd hl
      have := h.spIn d hd hl
      simp only [upd]
      split <;> omega
    · intro d t n hd
      obtain ⟨a1, a2, a3, a4, a5, a6⟩ := h.sav d t n hd
      have hdc : d ≠ c := fun e => by subst e; simp_all
      refine ⟨by simp [upd, hdc, a1], by simp [upd, hdc, a2], by simp [upd, hdc, a3], by simp [upd, hdc, a4], a5, ?_⟩
      intro i hi
      simp only
      rw [if_neg (by unfold Apart at a5; omega)]
      exact a6 i hi
    · exact h.two
  | @run c m ho hl hT hS =>
    refine ⟨?_, h.occ, h.spIn, ?_, h.two⟩
    · intro d hd i hi
      simp only
      rw [hS _ (by omega) (by omega)]
      exact h.slot d hd i hi
    · intro d t n hd
      obtain ⟨a1, a2, a3, a4, a5, a6⟩ := h.sav d t n hd
      refine ⟨a1, a2, a3, a4, a5, ?_⟩
      intro i hi
      simp only
      rw [hT d t n hd _ (by omega) (by omega)]
      exact a6 i hi
  | @out c sp ho hl h1 h2 =>
    refine ⟨h.slot, h.occ, ?_, ?_, h.two⟩
    · intro d hd _
      have : d = c := by simp_all
      subst this
      simp [upd, h1, h2]
    · intro d t n hd
      obtain ⟨a1, a2, a3, a4, a5, a6⟩ := h.sav d t n hd
      have hdc : d ≠ c := fun e => by subst e; have := (h.occ d ho).2; simp_all
      exact ⟨a1, by simp [upd, hdc, a2], by simp [upd, hdc, a3], by simp [upd, hdc, a4], a5, a6⟩
  | @other m hT hS =>
    refine ⟨?_, h.occ, h.spIn, ?_, h.two⟩
    · intro d hd i hi
      simp only
      rw [hS _ (by omega) (by omega)]
      exact h.slot d hd i hi
    · intro d t n hd
      obtain ⟨a1, a2, a3, a4, a5, a6⟩ := h.sav d t n hd
      refine ⟨a1, a2, a3, a4, a5, ?_⟩
      intro i hi
      simp only
      rw [hT d t n hd _ (by omega) (by omega)]
      exact a6 i hi
  | @save c t ho hl hf hd =>
    obtain ⟨k1, k2⟩ := h.occ c ho
    obtain ⟨p1, p2⟩ := h.spIn c ho hl
    refine ⟨?_, ?_, ?_, ?_, ?_⟩
    · intro d hd' i hi
      simp only [memcpy]
      rw [if_neg (by unfold Apart at hf; omega)]
      exact h.slot d hd' i hi
    · intro d hd'; simp at hd'
    · intro d hd'; simp at hd'
    · intro d t' n' hd'
      by_cases hdc : d = c
      · subst hdc
        simp only [upd, if_true, Option.some.injEq, Prod.mk.injEq] at hd'
        obtain ⟨rfl, rfl⟩ := hd'
        refine ⟨k1, rfl, p1, p2, hf, ?_⟩
        intro i hi
        simp only [memcpy]
        rw [if_pos (by omega)]
        have := h.slot d k1 i hi
        rw [← this]
        congr 1
        omega
      · simp only [upd, if_neg hdc] at hd'
        obtain ⟨a1, a2, a3, a4, a5, a6⟩ := h.sav d t' n' hd'
        refine ⟨a1, a2, a3, a4, a5, ?_⟩
        intro i hi
        simp only [memcpy]
        have := hd d t' n' hd'
        rw [if_neg (by unfold Apart at this; omega)]
        exact a6 i hi
    · intro d e t1 n1 t2 n2 h1 h2 hne
      by_cases hdc : d = c
      · subst hdc
        have hec : e ≠ d := fun e => hne e.symm
        simp only [upd, if_true, Option.some.injEq, Prod.mk.injEq] at h1
        simp only [upd, if_neg hec] at h2
        obtain ⟨rfl, rfl⟩ := h1
        exact hd e t2 n2 h2
      · simp only [upd, if_neg hdc] at h1
        by_cases hec : e = c
        · subst hec
          simp only [upd, if_true, Option.some.injEq, Prod.mk.injEq] at h2
          obtain ⟨rfl, rfl⟩ := h2
          have := hd d t1 n1 h1
          unfold Apart at *
          omega
        · simp only [upd, if_neg hec] at h2
          exact h.two d e t1 n1 t2 n2 h1 h2 hne
  | @enterNew c ho hk hs =>
    refine ⟨h.slot, ?_, ?_, h.sav, h.two⟩
    · intro d hd
      simp only [Option.some.injEq] at hd
      subst hd
      exact ⟨hk, hs⟩
    · intro d _ hl
      simp at hl
  | @enter c t n ho hs =>
    obtain ⟨a1, a2, a3, a4, a5, a6⟩ := h.sav c t n hs
    refine ⟨?_, ?_, ?_, ?_, ?_⟩
    · intro d hd i hi
      simp only [memcpy]
      rw [if_pos (by omega), ← a6 i hi]
      congr 1
      omega
    · intro d hd
      simp only [Option.some.injEq] at hd
      subst hd
      exact ⟨a1, by simp [upd]⟩
    · intro d _ hl
      simp at hl
    · intro d t' n' hd
      by_cases hdc : d = c
      · subst hdc; simp [upd] at hd
      · simp only [upd, if_neg hdc] at hd
        obtain ⟨b1, b2, b3, b4, b5, b6⟩ := h.sav d t' n' hd
        refine ⟨b1, b2, b3, b4, b5, ?_⟩
        intro i hi
        simp only [memcpy]
        rw [if_neg (by unfold Apart at b5; omega)]
        exact b6 i hi
    · intro d e t1 n1 t2 n2 h1 h2 hne
      by_cases hdc : d = c
      · subst hdc; simp [upd] at h1
      · by_cases hec : e = c
        · subst hec; simp [upd] at h2
        · simp only [upd, if_neg hdc] at h1
          simp only [upd, if_neg hec] at h2
          exact h.two d e t1 n1 t2 n2 h1 h2 hne

/-- The part of the shared stack that belonged to `c` when it was switched out with contents `m`, wherever it is now. (Concerns co_env.cpp:52-475.) -/
def Kept (g : Cfg) (m : Mem) (c sp : Nat) (s : State) : Prop :=
  s.sp c = sp ∧ ((s.occ = some c ∧ s.live = false ∧ ∀ x, sp ≤ x → x < g.top → s.mem x = m x) ∨
    ∃ t, s.saved c = some (t, g.top - sp) ∧ ∀ i, i < g.top - sp → s.mem (t + i) = m (sp + i))

theorem kept_step {g : Cfg} {m : Mem} {c sp : Nat} {s s' : State} {a : Act} (h : Inv g s) (hk : Kept g m c sp s)
    (hs : Step g s a s') (ha : a ≠ .enter c) : Kept g m c sp s' := by
  have hr := g.room
  have htop : g.top = g.base + g.size := rfl
  obtain ⟨e1, e2⟩ := hk
  cases hs with
  | @add d hk h2 h3 =>
    have hdc : d ≠ c := by
      intro e; subst e
      rcases e2 with ⟨e3, _⟩ | ⟨t, e3, _⟩ <;> simp_all
    refine ⟨by simp [upd, hdc.symm, e1], ?_⟩
    rcases e2 with ⟨e3, e4, e5⟩ | ⟨t, e3, e4⟩
    · refine .inl ⟨e3, e4, ?_⟩
      intro x x1 x2
      simp only
      split
      · rename_i hx
        have := h.slot c (h.occ c e3).1 (x - (g.top - 8)) (by omega)
        rw [← this, ← e5 x x1 x2]
        congr 1
        omega
      · exact e5 x x1 x2
    · refine .inr ⟨t, e3, ?_⟩
      intro i hi
      obtain ⟨b1, b2, b3, b4, b5, b6⟩ := h.sav c t _ e3
      simp only
      rw [if_neg (by unfold Apart at b5; omega)]
      exact e4 i hi
  | @run d m' ho hl hT hS =>
    refine ⟨e1, ?_⟩
    rcases e2 with ⟨e3, e4, e5⟩ | ⟨t, e3, e4⟩
    · simp_all
    · refine .inr ⟨t, e3, fun i hi => ?_⟩
      simp only
      rw [hT c t _ e3 _ (by omega) (by omega)]
      exact e4 i hi
  | @out d sp' ho hl h1 h2 =>
    rcases e2 with ⟨e3, e4, e5⟩ | ⟨t, e3, e4⟩
    · simp_all
    · have hdc : d ≠ c := by
        intro e; subst e
        have := (h.occ d ho).2
        simp_all
      exact ⟨by simp [upd, hdc.symm, e1], .inr ⟨t, e3, e4⟩⟩
  | @other m' hT hS =>
    refine ⟨e1, ?_⟩
    rcases e2 with ⟨e3, e4, e5⟩ | ⟨t, e3, e4⟩
    · have := h.spIn c e3 e4
      refine .inl ⟨e3, e4, fun x x1 x2 => ?_⟩
      simp only
      rw [hS x (by omega) x2]
      exact e5 x x1 x2
    · refine .inr ⟨t, e3, fun i hi => ?_⟩
      simp only
      rw [hT c t _ e3 _ (by omega) (by omega)]
      exact e4 i hi
  | @save d t ho hl hf hd =>
    rcases e2 with ⟨e3, e4, e5⟩ | ⟨t', e3, e4⟩
    · have hdc : d = c := by simp_all
      subst hdc
      refine ⟨e1, .inr ⟨t, by simp [upd, e1], ?_⟩⟩
      intro i hi
      simp only [memcpy]
      rw [if_pos (by omega), ← e5 (sp + i) (by omega) (by omega)]
      congr 1
      omega
    · have hdc : d ≠ c := by
        intro e; subst e
        have := (h.occ d ho).2
        simp_all
      refine ⟨e1, .inr ⟨t', by simp [upd, hdc.symm, e3], ?_⟩⟩
      intro i hi
      have := hd c t' _ e3
      simp only [memcpy]
      rw [if_neg (by unfold Apart at this; omega)]
      exact e4 i hi
  | @enterNew d ho hk hs =>
    rcases e2 with ⟨e3, _⟩ | ⟨t, e3, e4⟩
    · simp_all
    · exact ⟨e1, .inr ⟨t, e3, e4⟩⟩
  | @enter d t n ho hs =>
    have hdc : d ≠ c := fun e => ha (by rw [e])
    rcases e2 with ⟨e3, _⟩ | ⟨t', e3, e4⟩
    · simp_all
    · refine ⟨e1, .inr ⟨t', by simp [upd, hdc.symm, e3], ?_⟩⟩
      intro i hi
      obtain ⟨b1, b2, b3, b4, b5, b6⟩ := h.sav c t' _ e3
      obtain ⟨c1, c2, c3, c4, c5, c6⟩ := h.sav d t n hs
      simp only [memcpy]
      rw [if_neg (by unfold Apart at b5; omega)]
      exact e4 i hi

/-- **C74.** Any execution: `c` is switched out with stack pointer `sp`, anything happens, and `c` is switched in for the
first time again. Then its stack pointer is `sp` and every byte from it to the top of the stack is as it left it. -/
theorem C74_shared_stack_roundtrip (g : Cfg) (m0 : Mem) (s0 s1 s2 s3 : State) (as bs : List Act) (c sp : Nat)
    (h0 : Path (Step g) (.init m0) as s0) (h1 : Step g s0 (.out c sp) s1) (h2 : Path (Step g) s1 bs s2)
    (hb : Act.enter c ∉ bs) (h3 : Step g s2 (.enter c) s3) :
    s3.occ = some c ∧ s3.sp c = sp ∧ ∀ x, sp ≤ x → x < g.top → s3.mem x = s0.mem x := by
  have i0 : Inv g s0 := h0.inv (Inv g) (fun _ _ _ h hs => inv_step h hs) (inv_init g m0)
  have i1 := inv_step i0 h1
  have k1 : Kept g s0.mem c sp s1 := by
    cases h1 with
    | out ho hl p1 p2 => exact ⟨by simp [upd], .inl ⟨ho, rfl, fun x _ _ => rfl⟩⟩
  have k2 : Inv g s2 ∧ Kept g s0.mem c sp s2 := by
    clear h3 h1
    induction h2 with
    | nil => exact ⟨i1, k1⟩
    | cons h hs ih =>
      simp only [List.mem_cons, not_or] at hb
      exact ih hb.2 (inv_step i1 h) (kept_step i1 k1 h (Ne.symm hb.1))
  obtain ⟨i2, k2, k3⟩ := k2
  have htop : g.top = g.base + g.size := rfl
  cases h3 with
  | enterNew ho hk hs =>
    rcases k3 with ⟨k3, _⟩ | ⟨t, k3, _⟩ <;> simp_all
  | @enter _ t n ho hs =>
    rcases k3 with ⟨k3, _⟩ | ⟨t', k3, k4⟩
    · simp_all
    · rw [hs] at k3
      simp only [Option.some.injEq, Prod.mk.injEq] at k3
      obtain ⟨rfl, rfl⟩ := k3
      obtain ⟨c1, c2, c3, c4, c5, c6⟩ := i2.sav c _ _ hs
      refine ⟨rfl, k2, ?_⟩
      intro x x1 x2
      simp only [memcpy]
      rw [if_pos (by omega)]
      have := k4 (x - sp) (by omega)
      rw [show sp + (x - sp) = x by omega] at this
      rw [← this]
      congr 1
      omega

/-- The same for the first time a coroutine is switched in: the top of the shared stack holds its return address, although
other coroutines have used the stack since `init_ctx` wrote it. -/
theorem C74_first_entry (g : Cfg) (m0 : Mem) (s s' : State) (as : List Act) (c : Nat)
    (h0 : Path (Step g) (.init m0) as s) (h : Step g s (.enter c) s') : ∀ i, i < 8 → s'.mem (g.top - 8 + i) = g.start i := by
  have i0 : Inv g s := h0.inv (Inv g) (fun _ _ _ h hs => inv_step h hs) (inv_init g m0)
  have i1 := inv_step i0 h
  have : s'.occ = some c := by cases h <;> rfl
  exact i1.slot c (i1.occ c this).1

/-- Neither copy has overlapping operands (which would be undefined behaviour of `memcpy`). -/
theorem C74_copies_disjoint (g : Cfg) (m0 : Mem) (s s' : State) (as : List Act)
    (h0 : Path (Step g) (.init m0) as s) :
    (∀ c t, Step g s (.save c t) s' → Apart t (g.top - s.sp c) (s.sp c) (g.top - s.sp c)) ∧
    (∀ c t n, s.saved c = some (t, n) → Apart (g.top - n) n t n) := by
  have i0 : Inv g s := h0.inv (Inv g) (fun _ _ _ h hs => inv_step h hs) (inv_init g m0)
  have htop : g.top = g.base + g.size := rfl
  refine ⟨?_, ?_⟩
  · intro c t h
    cases h with
    | save ho hl hf hd =>
      have := i0.spIn c ho hl
      unfold Apart at *
      omega
  · intro c t n h
    obtain ⟨c1, c2, c3, c4, c5, c6⟩ := i0.sav c t n h
    unfold Apart at *
    omega

/-! ## A concrete execution: coroutine 0 leaves sevens on the stack, coroutine 1 overwrites them with nines, 0 returns -/

/-- Example, no counterpart in the code. (Concerns co_env.cpp:52-475.) -/
def demoCfg : Cfg := ⟨4096, 64, fun i => BitVec.ofNat 8 (100 + i), by decide⟩

/-- Example, no counterpart in the code. (Concerns co_env.cpp:52-475.) -/
def demo0 : State :=
  { mem := fun x => if x < 4152 then 7 else demoCfg.start (x - 4152)
    known := upd (upd (fun _ => false) 0 true) 1 true
    sp := upd (upd (fun _ => 0) 0 4152) 1 4152, saved := fun _ => none, occ := some 0, live := true }

/-- After `out`, `save` to 100, `enter 1`. (Concerns co_env.cpp:52-475.) -/
def demo1 : State :=
  { demo0 with
    mem := memcpy demo0.mem 100 4120 40, sp := upd demo0.sp 0 4120
    saved := upd demo0.saved 0 (some (100, 40)), occ := some 1 }

/-- Coroutine 1 has written nines. (Concerns co_env.cpp:52-475.) -/
def demo2 : State :=
  { demo1 with mem := fun x => if 4096 ≤ x ∧ x < 4152 then 9 else demo1.mem x }

/-- After coroutine 1 was switched out with stack pointer 4100 and saved to 200. (Concerns co_env.cpp:52-475.) -/
def demo3 : State :=
  { demo2 with
    mem := memcpy demo2.mem 200 4100 60, sp := upd demo2.sp 1 4100
    saved := upd demo2.saved 1 (some (200, 60)), occ := none, live := false }

/-- Example, no counterpart in the code. (Concerns co_env.cpp:52-475.) -/
def demo4 : State :=
  { demo3 with mem := memcpy demo3.mem 4120 100 40, saved := upd demo3.saved 0 none, occ := some 0, live := true }

/-- `demo0` is reached by adding both coroutines and letting 0 run. -/
theorem demo0_reach : Path (Step demoCfg) (.init (fun _ => 0)) [.add 0, .add 1, .enter 0, .run 0] demo0 := by
  have htop : demoCfg.top = 4160 := rfl
  refine .cons (.add rfl rfl (by simp [State.init])) <| .cons (.add rfl rfl (by simp [State.init])) <|
    .cons (.enterNew rfl rfl rfl) <| .cons (q1 := demo0) ?_ <| .nil _
  refine .run rfl rfl (fun d t n h => by simp [State.init] at h) (fun x x1 x2 => ?_)
  simp only
  rw [if_neg (by omega), if_pos (by omega), htop]

theorem demo_run : ∃ s1, Step demoCfg demo0 (.out 0 4120) s1 ∧
    Path (Step demoCfg) s1 [.save 0 100, .enter 1, .run 1, .out 1 4100, .save 1 200] demo3 ∧
    Step demoCfg demo3 (.enter 0) demo4 ∧ demo3.mem 4121 = 9 ∧ demo4.mem 4121 = 7 := by
  refine ⟨_, .out rfl rfl (by decide) (by decide), ?_, ?_, by decide, by decide⟩
  · refine .cons (.save rfl rfl (by decide) (fun d t n h => ?_)) <| .cons (.enterNew rfl rfl rfl) <|
      .cons (q1 := demo2) (.run rfl rfl (fun d t n h x x1 x2 => ?_) (fun x x1 x2 => ?_)) <|
      .cons (.out rfl rfl (by decide) (by decide)) <| .cons (.save rfl rfl (by decide) (fun d t n h => ?_)) <| .nil _
    · simp [demo0] at h
    · by_cases hd : d = 0
      · subst hd
        have : (some (100, 40) : Option (Nat × Nat)) = some (t, n) := h
        simp only [Option.some.injEq, Prod.mk.injEq] at this
        obtain ⟨rfl, rfl⟩ := this
        simp only
        rw [if_neg (by omega)]
        rfl
      · simp [demo0, upd, hd] at h
    · have : demoCfg.top = 4160 := rfl
      simp only
      rw [if_neg (by omega)]
      rfl
    · by_cases hd : d = 0
      · subst hd
        have : (some (100, 40) : Option (Nat × Nat)) = some (t, n) := h
        simp only [Option.some.injEq, Prod.mk.injEq] at this
        obtain ⟨rfl, rfl⟩ := this
        decide
      · simp [demo2, demo1, demo0, upd, hd] at h
  · exact .enter (t := 100) (n := 40) rfl rfl

/-- The theorem applies to it: the byte below the slot is a seven again. -/
example : demo4.mem 4121 = 7 := by
  obtain ⟨s1, h1, h2, h3, _, _⟩ := demo_run
  rw [(C74_shared_stack_roundtrip demoCfg _ demo0 s1 demo3 demo4 _ _ 0 4120 demo0_reach h1 h2 (by simp) h3).2.2 4121
    (by decide) (by decide)]
  decide

/-! ## C75: giving stack pages back -/

/-- `shrink_mem_to_top` (co_vos_gcc_x86_64.cpp:187-198): nothing if `bottom >= top`, otherwise
`madvise(page of bottom, page of top - page of bottom, MADV_DONTNEED)`, after which these pages read as zero. -/
def shrinkMem (m : Mem) (top bottom : Nat) : Mem :=
  if bottom ≥ top then m
  else
    let p := bottom / 4096 * 4096
    let size := top / 4096 * 4096 - p
    fun x => if p ≤ x ∧ x < p + size then 0 else m x

/-- `co_ctx::shrink_stack` (co_ctx.cpp:301-314): acts on every 1024th call. `cnt`: `shrink_stack_counter__`, an unsigned short.
`base`: `stack__->stack()`, 0 for a coroutine without a stack of its own. -/
def shrinkStack (m : Mem) (cnt : Nat) (sp base : Nat) : Mem × Nat :=
  if base = 0 then (m, cnt)
  else
    let cnt := (cnt + 1) % 65536
    if cnt &&& 1024 ≠ 0 then (shrinkMem m sp base, 0) else (m, cnt)

/-- **C75.** A byte that changes is below the stack pointer, in a whole page below it, and in a page of the stack. -/
theorem C75_shrink_safe (m : Mem) (cnt sp base x : Nat) (h : (shrinkStack m cnt sp base).1 x ≠ m x) :
    x < sp ∧ x / 4096 < sp / 4096 ∧ base / 4096 ≤ x / 4096 := by
  unfold shrinkStack at h
  split at h
  · exact absurd rfl h
  · simp only at h
    split at h
    · unfold shrinkMem at h
      split at h
      · exact absurd rfl h
      · simp only at h
        split at h
        · omega
        · exact absurd rfl h
    · exact absurd rfl h

/-- The stack of a coroutine is page aligned (mmap), so nothing outside it is touched. -/
theorem C75_stays_inside (m : Mem) (cnt sp base size x : Nat) (hb : base % 4096 = 0) (hs : sp ≤ base + size)
    (h : (shrinkStack m cnt sp base).1 x ≠ m x) : base ≤ x ∧ x < base + size := by
  have := C75_shrink_safe m cnt sp base x h
  omega

/-- It does give pages back: on the 1024th call every whole page between the base and the stack pointer is zeroed. -/
theorem C75_shrink_effective (m : Mem) (sp base x : Nat) (hb : base ≠ 0) (h1 : base ≤ x) (h2 : x / 4096 < sp / 4096) :
    shrinkStack m 1023 sp base = (shrinkMem m sp base, 0) ∧ shrinkMem m sp base x = 0 := by
  refine ⟨by simp [shrinkStack, hb], ?_⟩
  unfold shrinkMem
  rw [if_neg (by omega)]
  exact if_pos (by omega)

/-- The counter after `n` calls for one coroutine; 0 at first (include/cocpp/core/co_ctx.h:63). The memory and the stack
pointer may change between the calls. -/
def shrinkCount (base : Nat) : List (Mem × Nat) → Nat → Nat
  | [], cnt => cnt
  | (m, sp) :: l, cnt => shrinkCount base l (shrinkStack m cnt sp base).2

theorem and_1024 {n : Nat} (h : n < 1024) : n &&& 1024 = 0 := by
  apply Nat.eq_of_testBit_eq
  intro i
  rw [Nat.testBit_and, show (1024 : Nat) = 2 ^ 10 from rfl, Nat.testBit_two_pow]
  by_cases hi : 10 = i
  · subst hi
    simp [Nat.testBit_lt_two_pow (show n < 2 ^ 10 from h)]
  · simp [hi]

theorem shrink_count (base : Nat) (hb : base ≠ 0) : ∀ (l : List (Mem × Nat)) (cnt : Nat), cnt < 1024 →
    shrinkCount base l cnt = (cnt + l.length) % 1024
  | [], cnt, h => by simp [shrinkCount, Nat.mod_eq_of_lt h]
  | (m, sp) :: l, cnt, h => by
    simp only [shrinkCount, List.length_cons]
    have h1 : (cnt + 1) % 65536 = cnt + 1 := by omega
    have h2 : (shrinkStack m cnt sp base).2 = (cnt + 1) % 1024 := by
      simp only [shrinkStack, hb, if_false, h1]
      by_cases h3 : cnt = 1023
      · subst h3; simp
      · have h5 := and_1024 (n := cnt + 1) (by omega)
        simp only [h5, ne_eq, not_true_eq_false, if_false]
        omega
    rw [h2, shrink_count base hb l _ (by omega)]
    omega

/-- Whatever the calls before: the next one gives the pages back if and only if it is the 1024th, the 2048th, ... -/
theorem C75_shrinks_every_1024th (m : Mem) (sp base : Nat) (hb : base ≠ 0) (l : List (Mem × Nat)) :
    (shrinkStack m (shrinkCount base l 0) sp base).1 = if 1024 ∣ l.length + 1 then shrinkMem m sp base else m := by
  rw [shrink_count base hb l 0 (by omega)]
  simp only [Nat.zero_add]
  have hlt : l.length % 1024 < 1024 := Nat.mod_lt _ (by omega)
  by_cases h : 1024 ∣ l.length + 1
  · rw [if_pos h]
    have : l.length % 1024 = 1023 := by omega
    rw [this]; simp [shrinkStack, hb]
  · rw [if_neg h]
    have h5 := and_1024 (n := l.length % 1024 + 1) (by omega)
    have h1 : (l.length % 1024 + 1) % 65536 = l.length % 1024 + 1 := by omega
    simp only [shrinkStack, hb, if_false, h1, h5, ne_eq, not_true_eq_false]

/-- A stack of four pages, the stack pointer in the third: two pages go, the rest stays. -/
example : let m := (shrinkStack (fun _ => 5) 1023 (40960 + 9000) 40960).1
    m 40960 = 0 ∧ m (40960 + 8191) = 0 ∧ m (40960 + 8192) = 5 ∧ m (40960 + 9000) = 5 ∧ m 40959 = 5 := by decide

end Verif.Machine.Shared
