/-! # A small x86-64 machine

Enough of the instruction set for `switch_to` (source/cocpp/core/co_vos_gcc_x86_64.cpp:42-96). Words and addresses are 64 bit
and wrap around; memory is byte addressed and little endian. Simplifications: `pushf`/`popf` move the whole flags word;
the floating point and vector state is one opaque value which no instruction of `switch_to` touches; the segment registers
are not modelled; memory accesses do not fault. -/

namespace Verif.Machine

/-- 64-bit words of the machine (no counterpart in the code). (Concerns co_vos_gcc_x86_64.cpp:42-96.) -/
abbrev Word := BitVec 64
/-- Bytes (no counterpart in the code). (Concerns co_vos_gcc_x86_64.cpp:42-96.) -/
abbrev Byte := BitVec 8

theorem toNat8 : BitVec.toNat (8 : Word) = 8 := rfl

/-- The registers switch_to saves and restores (co_vos_gcc_x86_64.cpp:42-96). -/
inductive Reg
  | rax | rbx | rcx | rdx | rsi | rdi | rbp | rsp | r8 | r9 | r10 | r11 | r12 | r13 | r14 | r15
  deriving DecidableEq, Repr

/-- Memory of the process. Simplification: all addresses are accessible. (Concerns co_vos_gcc_x86_64.cpp:42-96.) -/
abbrev Mem := Word → Byte

/-- Distance of an address above `a`, modulo 2^64. (Concerns co_vos_gcc_x86_64.cpp:42-96.) -/
def dist (x a : Word) : Nat := (x - a).toNat

/-- `x` is one of the `n` bytes from `a` on. (Concerns co_vos_gcc_x86_64.cpp:42-96.) -/
def In (x a : Word) (n : Nat) : Prop := dist x a < n

instance (x a : Word) (n : Nat) : Decidable (In x a n) := inferInstanceAs (Decidable (_ < _))

/-- The `n` bytes from `a` and the `k` bytes from `b` do not overlap. (Concerns co_vos_gcc_x86_64.cpp:42-96.) -/
def Sep (a : Word) (n : Nat) (b : Word) (k : Nat) : Prop := ∀ x, In x a n → ¬ In x b k

/-- Little-endian load of eight bytes (x86-64). (Concerns co_vos_gcc_x86_64.cpp:42-96.) -/
def read64 (m : Mem) (a : Word) : Word :=
  BitVec.ofNat 64 ((m a).toNat + (m (a + 1)).toNat * 2 ^ 8 + (m (a + 2)).toNat * 2 ^ 16 + (m (a + 3)).toNat * 2 ^ 24 +
    (m (a + 4)).toNat * 2 ^ 32 + (m (a + 5)).toNat * 2 ^ 40 + (m (a + 6)).toNat * 2 ^ 48 + (m (a + 7)).toNat * 2 ^ 56)

/-- The `i`-th byte of a word, little-endian (x86-64). (Concerns co_vos_gcc_x86_64.cpp:42-96.) -/
def byteOf (v : Word) (i : Nat) : Byte := BitVec.ofNat 8 (v.toNat / 2 ^ (8 * i))

/-- Little-endian store of eight bytes (x86-64). (Concerns co_vos_gcc_x86_64.cpp:42-96.) -/
def write64 (m : Mem) (a v : Word) : Mem := fun x => if In x a 8 then byteOf v (dist x a) else m x

theorem dist_add (a : Word) (k : Nat) (h : k < 2 ^ 64) : dist (a + BitVec.ofNat 64 k) a = k := by
  unfold dist
  have : a + BitVec.ofNat 64 k - a = BitVec.ofNat 64 k := by
    apply BitVec.eq_of_toNat_eq; simp only [BitVec.toNat_sub, BitVec.toNat_add, BitVec.toNat_ofNat]; omega
  rw [this, BitVec.toNat_ofNat, Nat.mod_eq_of_lt h]

theorem in_add (a : Word) (k n : Nat) (h : k < 2 ^ 64) : In (a + BitVec.ofNat 64 k) a n ↔ k < n := by
  rw [In, dist_add a k h]

theorem eq_add_dist (x a : Word) : x = a + BitVec.ofNat 64 (dist x a) := by
  unfold dist
  apply BitVec.eq_of_toNat_eq; simp only [BitVec.toNat_sub, BitVec.toNat_add, BitVec.toNat_ofNat]; omega

/-- Eight bytes agree, so do the words. -/
theorem read_congr {m m' : Mem} {a : Word} (h : ∀ x, In x a 8 → m x = m' x) : read64 m a = read64 m' a := by
  have h0 : m a = m' a := h a (by simp [In, dist])
  have e : ∀ k : Nat, k < 8 → m (a + BitVec.ofNat 64 k) = m' (a + BitVec.ofNat 64 k) :=
    fun k hk => h _ ((in_add a k 8 (by omega)).2 hk)
  unfold read64
  have e1 : m (a + 1) = m' (a + 1) := e 1 (by omega)
  have e2 : m (a + 2) = m' (a + 2) := e 2 (by omega)
  have e3 : m (a + 3) = m' (a + 3) := e 3 (by omega)
  have e4 : m (a + 4) = m' (a + 4) := e 4 (by omega)
  have e5 : m (a + 5) = m' (a + 5) := e 5 (by omega)
  have e6 : m (a + 6) = m' (a + 6) := e 6 (by omega)
  have e7 : m (a + 7) = m' (a + 7) := e 7 (by omega)
  rw [h0, e1, e2, e3, e4, e5, e6, e7]

theorem read_write (m : Mem) (a v : Word) : read64 (write64 m a v) a = v := by
  have e : ∀ k : Nat, k < 8 → write64 m a v (a + BitVec.ofNat 64 k) = byteOf v k := fun k hk => by
    unfold write64
    rw [if_pos ((in_add a k 8 (by omega)).2 hk), dist_add a k (by omega)]
  have e0 : write64 m a v a = byteOf v 0 := by have := e 0 (by omega); simpa using this
  have e1 : write64 m a v (a + 1) = byteOf v 1 := e 1 (by omega)
  have e2 : write64 m a v (a + 2) = byteOf v 2 := e 2 (by omega)
  have e3 : write64 m a v (a + 3) = byteOf v 3 := e 3 (by omega)
  have e4 : write64 m a v (a + 4) = byteOf v 4 := e 4 (by omega)
  have e5 : write64 m a v (a + 5) = byteOf v 5 := e 5 (by omega)
  have e6 : write64 m a v (a + 6) = byteOf v 6 := e 6 (by omega)
  have e7 : write64 m a v (a + 7) = byteOf v 7 := e 7 (by omega)
  unfold read64
  rw [e0, e1, e2, e3, e4, e5, e6, e7]
  apply BitVec.eq_of_toNat_eq
  have := v.isLt
  simp only [byteOf, BitVec.toNat_ofNat]
  omega

theorem write_other {m : Mem} {a v x : Word} (h : ¬ In x a 8) : write64 m a v x = m x := by
  unfold write64; rw [if_neg h]

theorem read_write_sep {m : Mem} {a b v : Word} (h : Sep a 8 b 8) : read64 (write64 m b v) a = read64 m a :=
  read_congr (fun x hx => write_other (h x hx))

/-- Two fields of the same structure. -/
theorem sep_fields (a : Word) (i j : Nat) (hi : i < 4096) (hj : j < 4096) (h : i + 8 ≤ j ∨ j + 8 ≤ i) :
    Sep (a + BitVec.ofNat 64 i) 8 (a + BitVec.ofNat 64 j) 8 := by
  intro x h1 h2
  unfold In dist at h1 h2
  simp only [BitVec.toNat_sub, BitVec.toNat_add, BitVec.toNat_ofNat] at h1 h2
  have := x.isLt
  have := a.isLt
  omega

theorem read_field (m : Mem) (a v : Word) (i j : Nat) (hi : i < 4096) (hj : j < 4096) (h : i + 8 ≤ j ∨ j + 8 ≤ i) :
    read64 (write64 m (a + BitVec.ofNat 64 j) v) (a + BitVec.ofNat 64 i) = read64 m (a + BitVec.ofNat 64 i) :=
  read_write_sep (sep_fields a i j hi hj h)

/-- A field of a structure of `n` bytes lies inside it. -/
theorem in_field {a x : Word} {i n : Nat} (hn : n < 2 ^ 64) (hi : i + 8 ≤ n) (h : In x (a + BitVec.ofNat 64 i) 8) :
    In x a n := by
  unfold In dist at *
  simp only [BitVec.toNat_sub, BitVec.toNat_add, BitVec.toNat_ofNat] at *
  have := x.isLt
  have := a.isLt
  omega

/-- Machine state. `fp`: floating point and vector registers. (x86-64, as used by co_vos_gcc_x86_64.cpp:42-96.) -/
structure M where
  reg : Reg → Word
  flags : Word
  rip : Word
  fp : Nat
  mem : Mem

/-- Set one register. (Concerns co_vos_gcc_x86_64.cpp:42-96.) -/
def set (f : Reg → Word) (r : Reg) (v : Word) : Reg → Word := fun x => if x = r then v else f x

@[simp] theorem set_same (f : Reg → Word) (r : Reg) (v : Word) : set f r v r = v := by simp [set]
theorem set_other (f : Reg → Word) {r x : Reg} (v : Word) (h : x ≠ r) : set f r v x = f x := by simp [set, h]

/-- The instructions used by `switch_to`, in AT&T syntax:
`movq src, off(base)`; `movq off(base), dst`; `popq off(base)`; `pushq off(base)`; `pushf`; `popf`; `retq`. (Concerns co_vos_gcc_x86_64.cpp:42-96.) -/
inductive Instr
  | store (src : Reg) (off : Nat) (base : Reg)
  | load (off : Nat) (base : Reg) (dst : Reg)
  | popM (off : Nat) (base : Reg)
  | pushM (off : Nat) (base : Reg)
  | pushf
  | popf
  | ret
  deriving DecidableEq, Repr

/-- Address of an operand `off(base)`. (Concerns co_vos_gcc_x86_64.cpp:42-96.) -/
def M.addr (s : M) (off : Nat) (base : Reg) : Word := s.reg base + BitVec.ofNat 64 off

/-- Semantics of the instructions that occur in co_vos_gcc_x86_64.cpp:45-93 (Intel SDM, restricted to the operand forms used there). -/
def M.exec (s : M) : Instr → M
  | .store src off base => { s with mem := write64 s.mem (s.addr off base) (s.reg src) }
  | .load off base dst => { s with reg := set s.reg dst (read64 s.mem (s.addr off base)) }
  | .popM off base =>
    let v := read64 s.mem (s.reg .rsp)
    let r := set s.reg .rsp (s.reg .rsp + 8)
    { s with reg := r, mem := write64 s.mem (r base + BitVec.ofNat 64 off) v }
  | .pushM off base =>
    let v := read64 s.mem (s.addr off base)
    { s with reg := set s.reg .rsp (s.reg .rsp - 8), mem := write64 s.mem (s.reg .rsp - 8) v }
  | .pushf => { s with reg := set s.reg .rsp (s.reg .rsp - 8), mem := write64 s.mem (s.reg .rsp - 8) s.flags }
  | .popf => { s with reg := set s.reg .rsp (s.reg .rsp + 8), flags := read64 s.mem (s.reg .rsp) }
  | .ret => { s with reg := set s.reg .rsp (s.reg .rsp + 8), rip := read64 s.mem (s.reg .rsp) }

/-- A straight-line program. (Concerns co_vos_gcc_x86_64.cpp:42-96.) -/
def M.run (s : M) (p : List Instr) : M := p.foldl M.exec s

/-- co_vos_gcc_x86_64.cpp:48-69. -/
def saveProg : List Instr :=
  [.store .r8 0 .rdi, .store .r9 8 .rdi, .store .r10 16 .rdi, .store .r11 24 .rdi, .store .r12 32 .rdi,
   .store .r13 40 .rdi, .store .r14 48 .rdi, .store .r15 56 .rdi, .store .rdi 64 .rdi, .store .rsi 72 .rdi,
   .store .rbp 80 .rdi, .store .rbx 88 .rdi, .store .rdx 96 .rdi, .store .rax 104 .rdi, .store .rcx 112 .rdi,
   .popM 128 .rdi, .pushf, .popM 136 .rdi, .store .rdi 256 .rsi, .store .rsp 120 .rdi]

/-- co_vos_gcc_x86_64.cpp:71-95. -/
def loadProg : List Instr :=
  [.load 120 .rsi .rsp, .pushM 136 .rsi, .popf, .pushM 128 .rsi, .load 112 .rsi .rcx, .load 104 .rsi .rax,
   .load 96 .rsi .rdx, .load 88 .rsi .rbx, .load 80 .rsi .rbp, .load 64 .rsi .rdi, .load 56 .rsi .r15,
   .load 48 .rsi .r14, .load 40 .rsi .r13, .load 32 .rsi .r12, .load 24 .rsi .r11, .load 16 .rsi .r10,
   .load 8 .rsi .r9, .load 0 .rsi .r8, .load 72 .rsi .rsi, .ret]

/-- `switch_to(curr, next)`, called with `rdi = curr`, `rsi = next`, the return address at `(rsp)`. (co_vos_gcc_x86_64.cpp:42-96.) -/
def switchTo : List Instr := saveProg ++ loadProg

end Verif.Machine
