import Verif.Machine.Switch

/-! # C72, C73: switching to a suspended and to a new coroutine -/

namespace Verif.Machine

/-- What the memory map has to provide for a call of `switch_to` in state `s`: neither save area overlaps the stack slots it
writes (the caller's return address slot and the slot below the next coroutine's stack pointer) nor the next coroutine's
`pre_ctx` field. (Concerns co_vos_gcc_x86_64.cpp:42-96.) -/
structure Layout (s : M) : Prop extends Apart s where
  dst : Sep (s.reg .rsi) 144 (field (savedMem s) (s.reg .rsi) 120 - 8) 8

theorem field_congr {m m' : Mem} {a : Word} (h : ∀ x, In x a 144 → m x = m' x) {o : Nat} (ho : o + 8 ≤ 144) :
    field m a o = field m' a o :=
  read_congr (fun x hx => h x (in_field (by decide) ho hx))

theorem off_lt (r : Reg) : offOf r + 8 ≤ 144 := by cases r <;> simp [offOf]

/-- The effect of a whole call of `switch_to`. -/
theorem run_switch (s : M) (h : Layout s) :
    let a := s.reg .rsi
    let m := savedMem s
    let sp := field m a 120
    let e := s.run switchTo
    (∀ r, r ≠ .rsp → e.reg r = field m a (offOf r)) ∧ e.reg .rsp = sp ∧ e.rip = field m a 128 ∧
      e.flags = field m a 136 ∧ e.fp = s.fp ∧
      e.mem = write64 (write64 m (sp - 8) (field m a 136)) (sp - 8) (field m a 128) := by
  intro a m sp e
  have he : e = (s.run saveProg).run loadProg := exec_app s saveProg loadProg
  rw [run_save] at he
  have := run_load { s with reg := set s.reg .rsp (s.reg .rsp + 8), mem := savedMem s }
    (by simpa [set] using h.dst)
  rw [← he] at this
  simpa [set] using this

/-- The only bytes a call of `switch_to` changes: the current coroutine's save area, the next coroutine's `pre_ctx` field,
the return address slot, and the eight bytes below the next coroutine's stack pointer. -/
theorem switch_frame (s : M) (h : Layout s) (x : Word) (h1 : ¬ In x (s.reg .rdi) 144)
    (h2 : ¬ In x (s.reg .rsi + BitVec.ofNat 64 256) 8) (h3 : ¬ In x (s.reg .rsp) 8)
    (h4 : ¬ In x (field (savedMem s) (s.reg .rsi) 120 - 8) 8) : (s.run switchTo).mem x = s.mem x := by
  rw [(run_switch s h).2.2.2.2.2, write_other h4, write_other h4, savedMem_frame s x h1 h3 h2]

/-- What may happen while a coroutine with save area `a` is switched out, as far as memory is concerned: any code that does
not write the area, and any number of calls of `switch_to` between other coroutines. (Concerns co_vos_gcc_x86_64.cpp:42-96.) -/
inductive Between (a : Word) : Mem → Mem → Prop
  | refl (m) : Between a m m
  | code {m m₁ m₂} : Between a m m₁ → (∀ x, In x a 144 → m₂ x = m₁ x) → Between a m m₂
  | switch {m} (s : M) : Between a m s.mem → Layout s → Sep a 144 (s.reg .rdi) 144 →
      Sep a 144 (s.reg .rsi + BitVec.ofNat 64 256) 8 → Sep a 144 (s.reg .rsp) 8 →
      Sep a 144 (field (savedMem s) (s.reg .rsi) 120 - 8) 8 → Between a m (s.run switchTo).mem

theorem Between.keep {a : Word} {m m' : Mem} (h : Between a m m') : ∀ x, In x a 144 → m' x = m x := by
  induction h with
  | refl => intro x _; rfl
  | code _ hc ih => intro x hx; rw [hc x hx, ih x hx]
  | switch s _ hl h1 h2 h3 h4 ih => intro x hx; rw [switch_frame s hl x (h1 x hx) (h2 x hx) (h3 x hx) (h4 x hx), ih x hx]

/-- **C72.** `s` calls `switch_to`, leaving the coroutine whose save area is `s.reg rdi`. After the switch, and after
whatever `Between` allows, another coroutine `s2` calls `switch_to` back to it. Then the call made in `s` returns: every
general purpose register and the flags have the values they had at the call, the stack pointer is the one after the return,
and execution continues at the return address. Of the memory only the resuming coroutine's save area and return address
slot, the `pre_ctx` field and the already consumed return address slot were written. -/
theorem C72_switch_roundtrip (s s2 : M)
    (h : Layout s) (hslot : Sep (s.reg .rdi) 144 (field (savedMem s) (s.reg .rsi) 120 - 8) 8)
    (hb : Between (s.reg .rdi) (s.run switchTo).mem s2.mem) (h2 : Apart s2) (ha : s2.reg .rsi = s.reg .rdi)
    (hc : Sep (s.reg .rdi) 144 (s2.reg .rdi) 144) (hs : Sep (s.reg .rdi) 144 (s2.reg .rsp) 8) :
    (∀ r, r ≠ .rsp → (s2.run switchTo).reg r = s.reg r) ∧
    (s2.run switchTo).reg .rsp = s.reg .rsp + 8 ∧
    (s2.run switchTo).rip = read64 s.mem (s.reg .rsp) ∧
    (s2.run switchTo).flags = s.flags ∧
    ∀ x, ¬ In x (s2.reg .rdi) 144 → ¬ In x (s2.reg .rsp) 8 → ¬ In x (s.reg .rdi + BitVec.ofNat 64 256) 8 →
      ¬ In x (s.reg .rsp) 8 → (s2.run switchTo).mem x = s2.mem x := by
  have k : ∀ x, In x (s.reg .rdi) 144 → savedMem s2 x = savedMem s x := by
    intro x hx
    rw [savedMem_frame s2 x (hc x hx) (hs x hx), hb.keep x hx, (run_switch s h).2.2.2.2.2,
      write_other (hslot x hx), write_other (hslot x hx)]
    rw [ha]
    intro hx2
    unfold In dist at hx hx2
    simp only [BitVec.toNat_sub, BitVec.toNat_add, BitVec.toNat_ofNat] at hx hx2
    have := x.isLt
    have := (s.reg .rdi).isLt
    omega
  have f : ∀ o, o + 8 ≤ 144 → field (savedMem s2) (s.reg .rdi) o = field (savedMem s) (s.reg .rdi) o :=
    fun o ho => field_congr k ho
  obtain ⟨g1, g2, g3, g4⟩ := savedMem_fields s h.toApart
  have l2 : Layout s2 := ⟨h2, by
    rw [ha, f 120 (by omega), g2, add_sub8]; exact h.slot⟩
  obtain ⟨r1, r2, r3, r4, r5, r6⟩ := run_switch s2 l2
  rw [ha] at r1 r2 r3 r4
  refine ⟨fun r hr => ?_, ?_, ?_, ?_, ?_⟩
  · rw [r1 r hr, f _ (off_lt r), g1 r hr]
  · rw [r2, f 120 (by omega), g2]
  · rw [r3, f 128 (by omega), g3]
  · rw [r4, f 136 (by omega), g4]
  · intro x x1 x2 x3 x4
    refine switch_frame s2 l2 x x1 (by rw [ha]; exact x3) x2 ?_
    rw [ha, f 120 (by omega), g2, add_sub8]
    exact x4

/-- Switching from a coroutine to itself (done for the idle coroutine, co_env.cpp:384) is a plain return. -/
theorem C72_switch_self (s : M) (h : Apart s) (ha : s.reg .rsi = s.reg .rdi) :
    (∀ r, r ≠ .rsp → (s.run switchTo).reg r = s.reg r) ∧ (s.run switchTo).reg .rsp = s.reg .rsp + 8 ∧
    (s.run switchTo).rip = read64 s.mem (s.reg .rsp) ∧ (s.run switchTo).flags = s.flags := by
  obtain ⟨g1, g2, g3, g4⟩ := savedMem_fields s h
  have l : Layout s := ⟨h, by rw [ha, g2, add_sub8]; exact h.slot⟩
  obtain ⟨r1, r2, r3, r4, _, _⟩ := run_switch s l
  rw [ha] at r1 r2 r3 r4
  exact ⟨fun r hr => by rw [r1 r hr, g1 r hr], by rw [r2, g2], by rw [r3, g3], by rw [r4, g4]⟩

/-! ## A concrete machine -/

/-- Register contents of the demo caller: everything different. (Concerns co_vos_gcc_x86_64.cpp:42-96.) -/
def demoReg : Reg → Word
  | .rdi => 0x1000 | .rsi => 0x2000 | .rsp => 0x7000 | .rbp => 0x7040 | .rax => 1 | .rbx => 2 | .rcx => 3 | .rdx => 4
  | .r8 => 8 | .r9 => 9 | .r10 => 10 | .r11 => 11 | .r12 => 12 | .r13 => 13 | .r14 => 14 | .r15 => 15

/-- Coroutine 1 (area 0x1000) calls `switch_to` with return address 0xabcdef; coroutine 2 (area 0x2000) is new, stack pointer
0x9000, entry 0x4444. (Concerns co_vos_gcc_x86_64.cpp:42-96.) -/
def demoS : M where
  reg := demoReg
  flags := 0x246
  rip := 0
  fp := 0
  mem := write64 (write64 (write64 (fun _ => 0) 0x7000 0xabcdef) 0x2078 0x9000) 0x2080 0x4444

/-- Coroutine 2, having spoilt every register, switches back. (Concerns co_vos_gcc_x86_64.cpp:42-96.) -/
def demoS2 : M where
  reg := fun r => match r with | .rdi => 0x2000 | .rsi => 0x1000 | .rsp => 0x8ff0 | _ => 0xdead
  flags := 0
  rip := 0x4488
  fp := 1
  mem := (demoS.run switchTo).mem

example : (demoS.run switchTo).rip = 0x4444 ∧ (demoS.run switchTo).reg .rsp = 0x9000 := by decide +kernel

example : (demoS2.run switchTo).reg .rbx = 2 ∧ (demoS2.run switchTo).reg .rsi = 0x2000 ∧
    (demoS2.run switchTo).reg .rsp = 0x7008 ∧ (demoS2.run switchTo).rip = 0xabcdef ∧
    (demoS2.run switchTo).flags = 0x246 := by decide +kernel

/-- Regions below 2^64 that do not overlap. -/
theorem sep_of_le {a b : Word} {n k : Nat} (ha : a.toNat + n ≤ 2 ^ 64) (hb : b.toNat + k ≤ 2 ^ 64)
    (h : a.toNat + n ≤ b.toNat ∨ b.toNat + k ≤ a.toNat) : Sep a n b k := by
  intro x h1 h2
  unfold In dist at h1 h2
  simp only [BitVec.toNat_sub] at h1 h2
  have := x.isLt
  have := a.isLt
  have := b.isLt
  omega

/-- The hypotheses of `C72_switch_roundtrip` hold for the demo. -/
example : (∀ r, r ≠ .rsp → (demoS2.run switchTo).reg r = demoReg r) ∧ (demoS2.run switchTo).rip = 0xabcdef := by
  have e1 : field (savedMem demoS) 0x2000 120 = 0x9000 := by decide +kernel
  have e2 : read64 demoS.mem (demoS.reg .rsp) = 0xabcdef := by decide +kernel
  have l : Layout demoS := ⟨⟨sep_of_le (by decide) (by decide) (by decide), sep_of_le (by decide) (by decide) (by decide)⟩, by
    show Sep 0x2000 144 (field (savedMem demoS) 0x2000 120 - 8) 8
    rw [e1]; exact sep_of_le (by decide) (by decide) (by decide)⟩
  have hm : demoS2.mem = (demoS.run switchTo).mem := by rw [demoS2]
  have := C72_switch_roundtrip demoS demoS2 l
    (by show Sep 0x1000 144 (field (savedMem demoS) 0x2000 120 - 8) 8
        rw [e1]; exact sep_of_le (by decide) (by decide) (by decide))
    (by rw [hm]; exact Between.refl _) ⟨sep_of_le (by decide) (by decide) (by decide), sep_of_le (by decide) (by decide) (by decide)⟩ rfl
    (sep_of_le (by decide) (by decide) (by decide)) (sep_of_le (by decide) (by decide) (by decide))
  exact ⟨this.1, this.2.2.1.trans e2⟩

/-! ## C73: the first switch -/

/-- `init_ctx` (co_vos_gcc_x86_64.cpp:98-107). `a`: `ctx->regs()`, `ctx`: the coroutine object, `top`: `stack->stack_top()`.
The other fields keep the zeroes of `regs__{}` (co_ctx.h). -/
def initCtx (m : Mem) (a ctx top entry start : Word) : Mem :=
  let m := write64 m (a + BitVec.ofNat 64 120) (top - 8)
  let m := write64 m (a + BitVec.ofNat 64 80) (top - 8)
  let m := write64 m (a + BitVec.ofNat 64 128) entry
  let m := write64 m (a + BitVec.ofNat 64 64) ctx
  write64 m (top - 8) start

/-- `co_stack::stack_top` (source/cocpp/core/co_stack.cpp): base plus size. -/
def stackTop (base : Word) (size : Nat) : Word := base + BitVec.ofNat 64 size

theorem init_fields (m : Mem) (a ctx top entry start : Word) (h : Sep a 144 (top - 8) 8) :
    let m' := initCtx m a ctx top entry start
    field m' a 120 = top - 8 ∧ field m' a 80 = top - 8 ∧ field m' a 128 = entry ∧ field m' a 64 = ctx ∧
      field m' a 136 = field m a 136 ∧ read64 m' (top - 8) = start := by
  have A : ∀ (m : Mem) v o, o + 8 ≤ 144 →
      read64 (write64 m (top - 8) v) (a + BitVec.ofNat 64 o) = read64 m (a + BitVec.ofNat 64 o) :=
    fun m v o ho => read_write_sep (fun x hx => h x (in_field (by decide) ho hx))
  have D : ∀ (m : Mem) v i j, i < 4096 → j < 4096 → (i + 8 ≤ j ∨ j + 8 ≤ i) →
      read64 (write64 m (a + BitVec.ofNat 64 j) v) (a + BitVec.ofNat 64 i) =
        read64 m (a + BitVec.ofNat 64 i) := fun m v i j => read_field m _ v i j
  refine ⟨?_, ?_, ?_, ?_, ?_, ?_⟩ <;>
    simp only [initCtx, field, read_write, A, D, Nat.reduceAdd, Nat.reduceLeDiff, Nat.reduceLT, or_true, true_or]

/-- **C73.** A coroutine set up by `init_ctx` on the stack `[base, base + size)`, `size` at least 16, nothing having written
its save area or its stack since: the first `switch_to` it starts `entry` with the coroutine object as first argument and
the flags of a zeroed save area, the stack pointer is inside the stack at the word holding the return address `start`, and
the switch has written nothing outside the stack, the caller's save area, its return address slot and `pre_ctx`. -/
theorem C73_first_switch (m : Mem) (s : M) (ctx base entry start : Word) (size : Nat) (hsz : 16 ≤ size)
    (hflags : field m (s.reg .rsi) 136 = 0)
    (hstack : Sep (s.reg .rsi) 144 base size)
    (harea : ∀ x, In x (s.reg .rsi) 144 → s.mem x = initCtx m (s.reg .rsi) ctx (stackTop base size) entry start x)
    (hown : ∀ x, In x base size → s.mem x = initCtx m (s.reg .rsi) ctx (stackTop base size) entry start x)
    (hcur : Apart s) (h1 : Sep (s.reg .rsi) 144 (s.reg .rdi) 144) (h2 : Sep (s.reg .rsi) 144 (s.reg .rsp) 8)
    (h3 : Sep base size (s.reg .rdi) 144) (h4 : Sep base size (s.reg .rsp) 8)
    (h5 : Sep base size (s.reg .rsi + BitVec.ofNat 64 256) 8) :
    let e := s.run switchTo
    e.rip = entry ∧ e.reg .rdi = ctx ∧ e.flags = 0 ∧ e.reg .rsp = stackTop base size - 8 ∧
      read64 e.mem (e.reg .rsp) = start ∧ (∀ x, In x (e.reg .rsp) 8 → In x base size) ∧
      ∀ x, ¬ In x base size → ¬ In x (s.reg .rdi) 144 → ¬ In x (s.reg .rsp) 8 →
        ¬ In x (s.reg .rsi + BitVec.ofNat 64 256) 8 → e.mem x = s.mem x := by
  intro e
  generalize hT : stackTop base size = top at *
  have top8 : ∀ x, In x (top - 8) 8 → In x base size := by
    intro x hx
    subst hT
    unfold stackTop In dist at *
    simp only [BitVec.toNat_sub, BitVec.toNat_add, BitVec.toNat_ofNat, toNat8] at *
    have := x.isLt
    have := base.isLt
    omega
  have top16 : ∀ x, In x (top - 8 - 8) 8 → In x base size := by
    intro x hx
    subst hT
    unfold stackTop In dist at *
    simp only [BitVec.toNat_sub, BitVec.toNat_add, BitVec.toNat_ofNat, toNat8] at *
    have := x.isLt
    have := base.isLt
    omega
  have disj : ∀ x, In x (top - 8) 8 → ¬ In x (top - 8 - 8) 8 := by
    intro x hx hx2
    unfold In dist at *
    simp only [BitVec.toNat_sub, toNat8] at *
    have := x.isLt
    have := top.isLt
    omega
  obtain ⟨i1, i2, i3, i4, i5, i6⟩ := init_fields m (s.reg .rsi) ctx top entry start
    (fun x hx hx2 => hstack x hx (top8 x hx2))
  have k : ∀ x, In x (s.reg .rsi) 144 → savedMem s x = initCtx m (s.reg .rsi) ctx top entry start x := by
    intro x hx
    rw [savedMem_frame s x (h1 x hx) (h2 x hx), harea x hx]
    intro hx2
    unfold In dist at hx hx2
    simp only [BitVec.toNat_sub, BitVec.toNat_add, BitVec.toNat_ofNat] at hx hx2
    have := x.isLt
    have := (s.reg .rsi).isLt
    omega
  have f : ∀ o, o + 8 ≤ 144 → field (savedMem s) (s.reg .rsi) o =
      field (initCtx m (s.reg .rsi) ctx top entry start) (s.reg .rsi) o := fun o ho => field_congr k ho
  have esp : field (savedMem s) (s.reg .rsi) 120 = top - 8 := by rw [f 120 (by omega), i1]
  have l : Layout s := ⟨hcur, by rw [esp]; exact fun x hx hx2 => hstack x hx (top16 x hx2)⟩
  obtain ⟨r1, r2, r3, r4, r5, r6⟩ := run_switch s l
  rw [esp] at r2 r6
  refine ⟨?_, ?_, ?_, r2, ?_, ?_, ?_⟩
  · rw [r3, f 128 (by omega), i3]
  · rw [r1 .rdi (by decide)]; exact (f 64 (by omega)).trans i4
  · rw [r4, f 136 (by omega), i5, hflags]
  · show read64 (s.run switchTo).mem _ = _
    rw [show e.reg .rsp = top - 8 from r2]
    rw [r6, read_write_sep disj, read_write_sep disj, ← i6]
    refine read_congr (fun x hx => ?_)
    have hx' := top8 x hx
    rw [savedMem_frame s x (h3 x hx') (h4 x hx') (h5 x hx'), hown x hx']
  · rw [show e.reg .rsp = top - 8 from r2]; exact top8
  · intro x x1 x2 x3 x4
    refine switch_frame s l x x2 x4 x3 ?_
    rw [esp]
    exact fun hx => x1 (top16 x hx)

/-- **C73, alignment.** At the entry of a function the ABI wants `rsp + 8` to be a multiple of 16. On a page aligned stack
(mmap) that is so exactly when the configured size is a multiple of 16. -/
theorem C73_alignment (base : Word) (size : Nat) (hbase : base.toNat % 4096 = 0) :
    ((stackTop base size - 8).toNat + 8) % 16 = 0 ↔ size % 16 = 0 := by
  unfold stackTop
  simp only [BitVec.toNat_sub, BitVec.toNat_add, BitVec.toNat_ofNat, toNat8]
  omega

/-- **C73, negation.** No size check exists, so a stack size of 100 bytes above 10 MB starts the coroutine misaligned. -/
theorem C73_misaligned_witness :
    ((stackTop 0x7f0000000000 (10 * 1024 * 1024 + 100) - 8).toNat + 8) % 16 ≠ 0 := by decide

/-- **C73, negation.** With a stack of less than 16 bytes the switch writes below the stack. -/
theorem C73_tiny_stack (base : Word) (size : Nat) (hsz : 8 ≤ size) (hsz2 : size < 16) (h : 8 ≤ base.toNat) : ∃ x, In x (stackTop base size - 8 - 8) 8 ∧ x.toNat < base.toNat := by
  refine ⟨stackTop base size - 8 - 8, by simp [In, dist], ?_⟩
  unfold stackTop
  simp only [BitVec.toNat_sub, BitVec.toNat_add, BitVec.toNat_ofNat, toNat8]
  omega

/-- A concrete first switch: stack of two pages, aligned. (Concerns co_vos_gcc_x86_64.cpp:42-96.) -/
def demoNew : M :=
  { demoS with mem := initCtx (write64 (fun _ => 0) 0x7000 0xabcdef) 0x2000 0x1f00 (stackTop 0x100000 8192) 0x4444 0x5555 }

example : (demoNew.run switchTo).rip = 0x4444 ∧ (demoNew.run switchTo).reg .rdi = 0x1f00 ∧
    (demoNew.run switchTo).reg .rsp = 0x101ff8 := by decide +kernel

example : read64 (demoNew.run switchTo).mem 0x101ff8 = 0x5555 := by decide +kernel

end Verif.Machine
