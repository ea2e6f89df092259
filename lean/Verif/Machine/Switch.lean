import Verif.Machine.X86

/-! # `switch_to` executed symbolically -/

namespace Verif.Machine

/-- Registers stored in the save area and their offsets (the layout of `sigcontext_64`), except the stack pointer (offset
120), the instruction pointer (128) and the flags (136). (Concerns co_vos_gcc_x86_64.cpp:42-96.) -/
def offOf : Reg → Nat
  | .r8 => 0 | .r9 => 8 | .r10 => 16 | .r11 => 24 | .r12 => 32 | .r13 => 40 | .r14 => 48 | .r15 => 56
  | .rdi => 64 | .rsi => 72 | .rbp => 80 | .rbx => 88 | .rdx => 96 | .rax => 104 | .rcx => 112 | .rsp => 120

/-- The word at offset `o` of the save area `a`. (Concerns co_vos_gcc_x86_64.cpp:42-96.) -/
def field (m : Mem) (a : Word) (o : Nat) : Word := read64 m (a + BitVec.ofNat 64 o)

theorem exec_app (s : M) (p q : List Instr) : s.run (p ++ q) = (s.run p).run q := by
  simp [M.run, List.foldl_append]

theorem sub_add8 (w : Word) : w - 8 + 8 = w := by simp [BitVec.sub_add_cancel]
theorem add_sub8 (w : Word) : w + 8 - 8 = w := by simp [BitVec.add_sub_cancel]

/-- What the first half leaves in memory. `a`: save area of the current coroutine, `b`: of the next. (Concerns co_vos_gcc_x86_64.cpp:42-96.) -/
def savedMem (s : M) : Mem :=
  let a := s.reg .rdi
  let m := write64 s.mem (a + BitVec.ofNat 64 0) (s.reg .r8)
  let m := write64 m (a + BitVec.ofNat 64 8) (s.reg .r9)
  let m := write64 m (a + BitVec.ofNat 64 16) (s.reg .r10)
  let m := write64 m (a + BitVec.ofNat 64 24) (s.reg .r11)
  let m := write64 m (a + BitVec.ofNat 64 32) (s.reg .r12)
  let m := write64 m (a + BitVec.ofNat 64 40) (s.reg .r13)
  let m := write64 m (a + BitVec.ofNat 64 48) (s.reg .r14)
  let m := write64 m (a + BitVec.ofNat 64 56) (s.reg .r15)
  let m := write64 m (a + BitVec.ofNat 64 64) (s.reg .rdi)
  let m := write64 m (a + BitVec.ofNat 64 72) (s.reg .rsi)
  let m := write64 m (a + BitVec.ofNat 64 80) (s.reg .rbp)
  let m := write64 m (a + BitVec.ofNat 64 88) (s.reg .rbx)
  let m := write64 m (a + BitVec.ofNat 64 96) (s.reg .rdx)
  let m := write64 m (a + BitVec.ofNat 64 104) (s.reg .rax)
  let m := write64 m (a + BitVec.ofNat 64 112) (s.reg .rcx)
  let m := write64 m (a + BitVec.ofNat 64 128) (read64 m (s.reg .rsp))
  let m := write64 m (s.reg .rsp) s.flags
  let m := write64 m (a + BitVec.ofNat 64 136) (read64 m (s.reg .rsp))
  let m := write64 m (s.reg .rsi + BitVec.ofNat 64 256) (s.reg .rdi)
  write64 m (a + BitVec.ofNat 64 120) (s.reg .rsp + 8)

theorem run_save (s : M) :
    s.run saveProg = { s with reg := set s.reg .rsp (s.reg .rsp + 8), mem := savedMem s } := by
  simp only [M.run, saveProg, List.foldl_cons, List.foldl_nil, M.exec, M.addr, set, savedMem]
  simp only [reduceCtorEq, if_false, if_true, add_sub8]
  congr 1
  funext x
  by_cases hx : x = .rsp <;> simp [set, hx]

/-- What the second half does: `a` is the save area in `rsi`, `sp` the saved stack pointer. -/
theorem run_load (s : M) (h : Sep (s.reg .rsi) 144 (field s.mem (s.reg .rsi) 120 - 8) 8) :
    let a := s.reg .rsi
    let sp := field s.mem a 120
    let e := s.run loadProg
    (∀ r, r ≠ .rsp → e.reg r = field s.mem a (offOf r)) ∧ e.reg .rsp = sp ∧ e.rip = field s.mem a 128 ∧
      e.flags = field s.mem a 136 ∧ e.fp = s.fp ∧
      e.mem = write64 (write64 s.mem (sp - 8) (field s.mem a 136)) (sp - 8) (field s.mem a 128) := by
  intro a sp e
  have hs : ∀ o, o + 8 ≤ 144 → Sep (a + BitVec.ofNat 64 o) 8 (sp - 8) 8 := fun o ho x hx hx2 =>
    h x (in_field (by decide) ho hx) hx2
  have f1 : ∀ (m : Mem) (v : Word) o, o + 8 ≤ 144 → read64 (write64 m (sp - 8) v) (a + BitVec.ofNat 64 o) = field m a o :=
    fun m v o ho => read_write_sep (hs o ho)
  have hrun : e = s.run loadProg := rfl
  simp only [M.run, loadProg, List.foldl_cons, List.foldl_nil, M.exec, M.addr, set] at hrun
  simp only [reduceCtorEq, if_false, if_true] at hrun
  have e120 : read64 s.mem (s.reg .rsi + BitVec.ofNat 64 120) = sp := rfl
  have e136 : read64 s.mem (s.reg .rsi + BitVec.ofNat 64 136) = field s.mem a 136 := rfl
  have e128 : read64 s.mem (s.reg .rsi + BitVec.ofNat 64 128) = field s.mem a 128 := rfl
  have ea : s.reg .rsi = a := rfl
  rw [e120, e136] at hrun
  rw [ea] at hrun
  simp only [sub_add8, read_write] at hrun
  have F : ∀ (m : Mem) (v : Word) o, o + 8 ≤ 144 → field (write64 m (sp - 8) v) a o = field m a o := f1
  rw [f1 _ _ 128 (by omega)] at hrun
  rw [hrun]
  refine ⟨?_, ?_, ?_, ?_, ?_, ?_⟩
  · intro r hr
    cases r <;> first
      | exact absurd rfl hr
      | simp only [set, reduceCtorEq, if_false, if_true, offOf, f1, F, Nat.reduceAdd, Nat.reduceLeDiff]
  · simp only [set, reduceCtorEq, if_false, if_true]
  · rfl
  · rfl
  · rfl
  · rfl

/-- The bytes the first half may change. -/
theorem savedMem_frame (s : M) (x : Word) (h1 : ¬ In x (s.reg .rdi) 144) (h2 : ¬ In x (s.reg .rsp) 8)
    (h3 : ¬ In x (s.reg .rsi + BitVec.ofNat 64 256) 8) : savedMem s x = s.mem x := by
  have f : ∀ o, o + 8 ≤ 144 → ¬ In x (s.reg .rdi + BitVec.ofNat 64 o) 8 := fun o ho hx =>
    h1 (in_field (by decide) ho hx)
  have F1 : ∀ (m : Mem) v o, o + 8 ≤ 144 → write64 m (s.reg .rdi + BitVec.ofNat 64 o) v x = m x :=
    fun m v o ho => write_other (f o ho)
  have F2 : ∀ (m : Mem) v, write64 m (s.reg .rsp) v x = m x := fun m v => write_other h2
  have F3 : ∀ (m : Mem) v, write64 m (s.reg .rsi + BitVec.ofNat 64 256) v x = m x := fun m v => write_other h3
  simp only [savedMem, F1, F2, F3, Nat.reduceAdd, Nat.reduceLeDiff]

/-- The save area is where the return address slot and the next coroutine's `pre_ctx` field are not. (Concerns co_vos_gcc_x86_64.cpp:42-96.) -/
structure Apart (s : M) : Prop where
  slot : Sep (s.reg .rdi) 144 (s.reg .rsp) 8
  pre : Sep (s.reg .rdi) 144 (s.reg .rsi + BitVec.ofNat 64 256) 8

theorem savedMem_fields (s : M) (h : Apart s) :
    (∀ r, r ≠ .rsp → field (savedMem s) (s.reg .rdi) (offOf r) = s.reg r) ∧
      field (savedMem s) (s.reg .rdi) 120 = s.reg .rsp + 8 ∧
      field (savedMem s) (s.reg .rdi) 128 = read64 s.mem (s.reg .rsp) ∧
      field (savedMem s) (s.reg .rdi) 136 = s.flags := by
  have f : ∀ o, o + 8 ≤ 144 → Sep (s.reg .rdi + BitVec.ofNat 64 o) 8 (s.reg .rsp) 8 := fun o ho x hx =>
    h.slot x (in_field (by decide) ho hx)
  have f' : ∀ o, o + 8 ≤ 144 → Sep (s.reg .rsp) 8 (s.reg .rdi + BitVec.ofNat 64 o) 8 := fun o ho x hx hx2 =>
    f o ho x hx2 hx
  have g : ∀ o, o + 8 ≤ 144 → Sep (s.reg .rdi + BitVec.ofNat 64 o) 8 (s.reg .rsi + BitVec.ofNat 64 256) 8 :=
    fun o ho x hx => h.pre x (in_field (by decide) ho hx)
  have A : ∀ (m : Mem) v o, o + 8 ≤ 144 →
      read64 (write64 m (s.reg .rsp) v) (s.reg .rdi + BitVec.ofNat 64 o) = read64 m (s.reg .rdi + BitVec.ofNat 64 o) :=
    fun m v o ho => read_write_sep (f o ho)
  have A' : ∀ (m : Mem) v o, o + 8 ≤ 144 →
      read64 (write64 m (s.reg .rdi + BitVec.ofNat 64 o) v) (s.reg .rsp) = read64 m (s.reg .rsp) :=
    fun m v o ho => read_write_sep (f' o ho)
  have B : ∀ (m : Mem) v o, o + 8 ≤ 144 →
      read64 (write64 m (s.reg .rsi + BitVec.ofNat 64 256) v) (s.reg .rdi + BitVec.ofNat 64 o) =
        read64 m (s.reg .rdi + BitVec.ofNat 64 o) :=
    fun m v o ho => read_write_sep (g o ho)
  have D : ∀ (m : Mem) v i j, i < 4096 → j < 4096 → (i + 8 ≤ j ∨ j + 8 ≤ i) →
      read64 (write64 m (s.reg .rdi + BitVec.ofNat 64 j) v) (s.reg .rdi + BitVec.ofNat 64 i) =
        read64 m (s.reg .rdi + BitVec.ofNat 64 i) := fun m v i j => read_field m _ v i j
  refine ⟨?_, ?_, ?_, ?_⟩
  · intro r hr
    cases r <;> first
      | exact absurd rfl hr
      | simp only [savedMem, field, offOf, read_write, A, B, D, Nat.reduceAdd, Nat.reduceLeDiff, Nat.reduceLT, or_true,
          true_or]
  · simp only [savedMem, field, read_write]
  · simp only [savedMem, field, read_write, A, A', B, D, Nat.reduceAdd, Nat.reduceLeDiff, Nat.reduceLT, or_true, true_or]
  · simp only [savedMem, field, read_write, A, A', B, D, Nat.reduceAdd, Nat.reduceLeDiff, Nat.reduceLT, or_true, true_or]

end Verif.Machine
