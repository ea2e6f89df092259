/-! # C121: what the report of a fatal signal says

The parts of the report that C111 leaves open: the memory map with the path of the program (source/cocpp/exception/co_exception.cpp:23-32, 104-126), the backtrace
(41-56), and the stacks of the coroutines (`dump_memory`, 185-205, called from `co_ctx::ctx_info`, source/cocpp/core/co_ctx.cpp:262-279). -/

namespace Verif.Report

/-! ## The stacks -/

/-- The eight bytes from `a` on as a number, lowest byte first: `*(uint64_t *)(addr + i)` (co_exception.cpp:196). `mem` gives the bytes. -/
def word (mem : Nat → Nat) (a : Nat) : Nat :=
  mem a + 256 * (mem (a + 1) + 256 * (mem (a + 2) + 256 * (mem (a + 3) + 256 * (mem (a + 4) + 256 * (mem (a + 5) + 256 * (mem (a + 6) + 256 * mem (a + 7)))))))

/-- What `dump_memory` prints (co_exception.cpp:190-201): the address at the start of a line, a word, the end of a line. The number formats are left out. -/
inductive Tok
  | addr (a : Nat)
  | word (w : Nat)
  | nl
  deriving DecidableEq, Repr

/-- `dump_memory` from offset `i` on (co_exception.cpp:188-202): what it prints, and the addresses of the bytes it reads. Simplified: `size_t` does not overflow. -/
def dumpFrom (mem : Nat → Nat) (addr size i : Nat) : List Tok × List Nat :=
  if i < size then
    let rest := dumpFrom mem addr size (i + 8)
    ((if i % 32 = 0 then [.addr (addr + i)] else []) ++ [.word (word mem (addr + i))] ++ (if i % 32 = 24 then [.nl] else []) ++ rest.1,
      (List.range 8).map (fun k => addr + i + k) ++ rest.2)
  else ([], [])
termination_by size - i

/-- `dump_memory(addr, size)` (co_exception.cpp:185-205). -/
def dump (mem : Nat → Nat) (addr size : Nat) : List Tok × List Nat := dumpFrom mem addr size 0

/-- How a reader understands the output: every line starts with an address, the words follow each other from there. `none` if it cannot be read so. (Concerns co_exception.cpp:23-205.) -/
def decode : Option Nat → List Tok → Option (List (Nat × Nat))
  | _, [] => some []
  | none, .addr a :: ts => decode (some a) ts
  | some _, .addr _ :: _ => none
  | some a, .word w :: ts => (decode (some (a + 8)) ts).map ((a, w) :: ·)
  | none, .word _ :: _ => none
  | some _, .nl :: ts => decode none ts
  | none, .nl :: _ => none

/-- The memory of a stack: address and size (`co_stack`, source/cocpp/core/co_stack.cpp:10-29). -/
structure Stack where
  base : Nat
  size : Nat
  deriving DecidableEq, Repr

/-- The stack part of `ctx_info` (co_ctx.cpp:262-279): the words printed and the bytes read; `none` is "stack:null" or "stack dump failed". -/
def stackPart (mem : Nat → Nat) (st : Option Stack) (sp : Nat) : Option (List Tok × List Nat) :=
  match st with
  | none => none
  | some k => if sp < k.base + k.size ∧ k.base ≤ sp then some (dump mem sp (k.base + k.size - sp)) else none

/-- Byte `k` of a word. -/
theorem word_byte (mem : Nat → Nat) (hm : ∀ a, mem a < 256) (a k : Nat) (hk : k < 8) : word mem a / 256 ^ k % 256 = mem (a + k) := by
  have h0 := hm a
  have h1 := hm (a + 1)
  have h2 := hm (a + 2)
  have h3 := hm (a + 3)
  have h4 := hm (a + 4)
  have h5 := hm (a + 5)
  have h6 := hm (a + 6)
  have h7 := hm (a + 7)
  unfold word
  match k, hk with
  | 0, _ => simp only [Nat.pow_zero, Nat.add_zero]; omega
  | 1, _ => simp only [show 256 ^ 1 = 256 from rfl]; omega
  | 2, _ => simp only [show 256 ^ 2 = 65536 from rfl]; omega
  | 3, _ => simp only [show 256 ^ 3 = 16777216 from rfl]; omega
  | 4, _ => simp only [show 256 ^ 4 = 4294967296 from rfl]; omega
  | 5, _ => simp only [show 256 ^ 5 = 1099511627776 from rfl]; omega
  | 6, _ => simp only [show 256 ^ 6 = 281474976710656 from rfl]; omega
  | 7, _ => simp only [show 256 ^ 7 = 72057594037927936 from rfl]; omega

/-- The output from word `j` on can be read, and gives the words from `j` on. -/
theorem decode_from (mem : Nat → Nat) (addr size : Nat) : ∀ (m j : Nat), size ≤ 8 * (j + m) →
    ∃ l, decode (if j % 4 = 0 then none else some (addr + 8 * j)) (dumpFrom mem addr size (8 * j)).1 = some l ∧
      ∀ i, j ≤ i → 8 * i < size → (addr + 8 * i, word mem (addr + 8 * i)) ∈ l := by
  intro m
  induction m with
  | zero =>
    intro j hj
    rw [dumpFrom]
    simp only [show ¬ 8 * j < size by omega, if_false]
    refine ⟨[], by simp [decode], fun i h1 h2 => by omega⟩
  | succ m ih =>
    intro j hj
    by_cases hlt : 8 * j < size
    · obtain ⟨l, h1, h2⟩ := ih (j + 1) (by omega)
      rw [dumpFrom]
      simp only [hlt, if_true]
      rw [show 8 * j + 8 = 8 * (j + 1) by omega]
      refine ⟨(addr + 8 * j, word mem (addr + 8 * j)) :: l, ?_, ?_⟩
      · have e : addr + 8 * (j + 1) = addr + 8 * j + 8 := by omega
        rw [e] at h1
        rcases (by omega : j % 4 = 0 ∨ j % 4 = 1 ∨ j % 4 = 2 ∨ j % 4 = 3) with q | q | q | q
        · have a1 : (8 * j) % 32 = 0 := by omega
          have a2 : (j + 1) % 4 ≠ 0 := by omega
          simp only [a2, if_false] at h1
          simp [q, a1, decode, h1]
        · have a1 : (8 * j) % 32 = 8 := by omega
          have a2 : (j + 1) % 4 ≠ 0 := by omega
          simp only [a2, if_false] at h1
          simp [q, a1, decode, h1]
        · have a1 : (8 * j) % 32 = 16 := by omega
          have a2 : (j + 1) % 4 ≠ 0 := by omega
          simp only [a2, if_false] at h1
          simp [q, a1, decode, h1]
        · have a1 : (8 * j) % 32 = 24 := by omega
          have a2 : (j + 1) % 4 = 0 := by omega
          simp only [a2, if_true] at h1
          simp [q, a1, decode, h1]
      · intro i hi hs
        by_cases hij : i = j
        · simp [hij]
        · exact List.mem_cons_of_mem _ (h2 i (by omega) hs)
    · rw [dumpFrom]
      simp only [hlt, if_false]
      exact ⟨[], by simp [decode], fun i h1 h2 => by omega⟩

/-- **C121**: the dump of a stack can be read back: every byte from the stack pointer to the top is in it, with its address and its value. -/
theorem C121_dump_complete (mem : Nat → Nat) (hm : ∀ a, mem a < 256) (k : Stack) (sp : Nat) (h1 : k.base ≤ sp) (h2 : sp < k.base + k.size) :
    ∃ out reads l, stackPart mem (some k) sp = some (out, reads) ∧ decode none out = some l ∧
      ∀ x, sp ≤ x → x < k.base + k.size → ∃ a w, (a, w) ∈ l ∧ a ≤ x ∧ x < a + 8 ∧ w / 256 ^ (x - a) % 256 = mem x := by
  obtain ⟨l, e1, e2⟩ := decode_from mem sp (k.base + k.size - sp) (k.base + k.size - sp) 0 (by omega)
  refine ⟨_, _, l, by simp only [stackPart, h1, h2, and_self, if_true]; rfl, by simpa [dump] using e1, ?_⟩
  intro x hx1 hx2
  refine ⟨sp + 8 * ((x - sp) / 8), _, e2 ((x - sp) / 8) (by omega) (by omega), by omega, by omega, ?_⟩
  rw [word_byte mem hm _ _ (by omega)]
  congr 1
  omega

/-- Case for C121: 40 bytes, two lines. -/
example : decode none (dump (fun a => a % 256) 4096 40).1 = some [(4096, word (fun a => a % 256) 4096), (4104, word (fun a => a % 256) 4104),
    (4112, word (fun a => a % 256) 4112), (4120, word (fun a => a % 256) 4120), (4128, word (fun a => a % 256) 4128)] ∧
    (dump (fun a => a % 256) 4096 40).1.length = 8 := by
  simp [dump, dumpFrom, decode]

/-- The bytes read. -/
theorem reads_from (mem : Nat → Nat) (addr size : Nat) : ∀ (m i : Nat), size ≤ i + 8 * m → ∀ y ∈ (dumpFrom mem addr size i).2,
    ∃ j, i ≤ j ∧ j % 8 = i % 8 ∧ j < size ∧ addr + j ≤ y ∧ y < addr + j + 8 := by
  intro m
  induction m with
  | zero =>
    intro i hi y hy
    rw [dumpFrom] at hy
    simp [show ¬ i < size by omega] at hy
  | succ m ih =>
    intro i hi y hy
    rw [dumpFrom] at hy
    by_cases hlt : i < size
    · simp only [hlt, if_true, List.mem_append, List.mem_map, List.mem_range] at hy
      rcases hy with ⟨k, hk, rfl⟩ | hy
      · exact ⟨i, by omega, rfl, hlt, by omega, by omega⟩
      · obtain ⟨j, q1, q2, q3, q4, q5⟩ := ih (i + 8) (by omega) y hy
        exact ⟨j, by omega, by omega, q3, q4, q5⟩
    · simp [hlt] at hy

/-- **C121**: the dump of a stack reads only pages that were mapped for this stack, whatever the size of the stack: it starts at a page and the stack pointer is a
multiple of eight. Up to seven bytes behind the stack are read, they are on its last page. -/
theorem C121_dump_within (mem : Nat → Nat) (k : Stack) (sp : Nat) (hb : k.base % 4096 = 0) (hsp : sp % 8 = 0) (out : List Tok) (reads : List Nat)
    (h : stackPart mem (some k) sp = some (out, reads)) : ∀ y ∈ reads, k.base ≤ y ∧ y < k.base + (k.size + 4095) / 4096 * 4096 := by
  intro y hy
  simp only [stackPart, Option.ite_none_right_eq_some, Option.some.injEq] at h
  obtain ⟨⟨h1, h2⟩, h3⟩ := h
  have e : reads = (dumpFrom mem sp (k.base + k.size - sp) 0).2 := (congrArg Prod.snd h3).symm
  rw [e] at hy
  obtain ⟨j, _, q2, q3, q4, q5⟩ := reads_from mem sp _ (k.base + k.size - sp) 0 (by omega) y hy
  omega

/-- Case for C121: a stack of 4090 bytes, the dump of its last ten bytes reads sixteen, all on the page. -/
example : ∃ out reads, stackPart (fun _ => 0) (some ⟨8192, 4090⟩) 12272 = some (out, reads) ∧ reads.length = 16 ∧ 12287 ∈ reads := by
  refine ⟨_, _, rfl, ?_, ?_⟩
  · simp [dumpFrom]
  · simp [dumpFrom]
    exact .inr ⟨7, by omega, rfl⟩

/-- **C121 is false for coroutines on a shared stack**: while such a coroutine is suspended its stack is a copy (source/cocpp/core/co_env.cpp:425-431) and its stack
pointer still one into the shared stack, so its stack is never dumped. -/
theorem C121_shared_not_dumped (mem : Nat → Nat) (shared copy : Stack) (sp : Nat) (h1 : shared.base ≤ sp) (h2 : sp < shared.base + shared.size)
    (hd : shared.base + shared.size ≤ copy.base ∨ copy.base + copy.size ≤ shared.base) : stackPart mem (some copy) sp = none := by
  simp only [stackPart]
  rw [if_neg (by omega)]

/-- Case for C121: a copy of 64 bytes below the shared stack. -/
example : stackPart (fun _ => 7) (some ⟨4096, 64⟩) 20416 = none ∧ (stackPart (fun _ => 7) (some ⟨16384, 4096⟩) 20416).isSome = true := by
  constructor <;> simp [stackPart]

/-! ## The memory map and the path of the program -/

/-- `fgets` with room for `n` characters: up to and with the end of the line, and the rest of the file. (Concerns co_exception.cpp:23-205.) -/
def fgets : Nat → List Char → List Char × List Char
  | 0, cs => ([], cs)
  | _, [] => ([], [])
  | n + 1, c :: cs => if c = '\n' then ([c], cs) else (c :: (fgets n cs).1, (fgets n cs).2)

theorem fgets_all (n : Nat) (cs : List Char) : (fgets n cs).1 ++ (fgets n cs).2 = cs := by
  induction n generalizing cs with
  | zero => rfl
  | succ n ih =>
    cases cs with
    | nil => rfl
    | cons c cs =>
      simp only [fgets]
      split
      · rfl
      · simp [ih]

theorem fgets_less (n : Nat) (c : Char) (cs : List Char) : (fgets (n + 1) (c :: cs)).2.length < (c :: cs).length := by
  have := congrArg List.length (fgets_all n cs)
  simp only [List.length_append] at this
  simp only [fgets]
  split <;> simp <;> omega

/-- The loop of `maps_info` (co_exception.cpp:119-123) with a buffer of `n + 2` characters, `n = 1022`; `ss << buf` stops at a null character. -/
def copyFile (n : Nat) : List Char → List Char
  | [] => []
  | c :: cs => (fgets (n + 1) (c :: cs)).1.takeWhile (· ≠ '\x00') ++ copyFile n (fgets (n + 1) (c :: cs)).2
termination_by cs => cs.length
decreasing_by exact fgets_less n c cs

theorem copyFile_all (n : Nat) : ∀ (m : Nat) (cs : List Char), cs.length ≤ m → '\x00' ∉ cs → copyFile n cs = cs := by
  intro m
  induction m with
  | zero =>
    intro cs hl _
    have : cs = [] := List.length_eq_zero_iff.1 (by omega)
    subst this
    simp [copyFile]
  | succ m ih =>
    intro cs hl h0
    cases cs with
    | nil => simp [copyFile]
    | cons c cs =>
      have hle := fgets_less n c cs
      have hall := fgets_all (n + 1) (c :: cs)
      rw [copyFile, ih _ (by simp at hl hle ⊢; omega) (fun hc => h0 (by rw [← hall]; exact List.mem_append_right _ hc))]
      have : ∀ x ∈ (fgets (n + 1) (c :: cs)).1, decide (x ≠ '\x00') = true := by
        intro x hx
        simp only [decide_eq_true_eq]
        rintro rfl
        exact h0 (by rw [← hall]; exact List.mem_append_left _ hx)
      have tw : ∀ (l : List Char), (∀ x ∈ l, decide (x ≠ '\x00') = true) → l.takeWhile (· ≠ '\x00') = l := by
        intro l
        induction l with
        | nil => intro _; rfl
        | cons y l ih => intro h; rw [List.takeWhile_cons, if_pos (h y (by simp)), ih (fun x hx => h x (List.mem_cons_of_mem _ hx))]
      rw [tw _ this, hall]

/-- What `realpath("/proc/self/exe", buf)` does: it stores the path, or fails and leaves the buffer unspecified. (Concerns co_exception.cpp:23-205.) -/
inductive Realpath
  | ok (path : List Char)
  | fail
  deriving DecidableEq, Repr

/-- A text, or undefined behaviour. (Concerns co_exception.cpp:23-205.) -/
inductive Out
  | text (s : List Char)
  | ub
  deriving DecidableEq, Repr

/-- `exe_path` (co_exception.cpp:23-32). `realpath` needs a buffer of `PATH_MAX` (4096) characters, there are 1024; on success the function returns the empty string; on
failure it reads the buffer, which nobody has written. -/
def exePath : Realpath → Out
  | .ok p => if p.length + 1 > 1024 then .ub else .text []
  | .fail => .ub

/-- `maps_info` (co_exception.cpp:104-126): `ids` is the text with the process and user ids, `file` the content of `/proc/self/maps`, `none` if it cannot be opened. -/
def mapsInfo (r : Realpath) (ids : List Char) (file : Option (List Char)) : Out :=
  match exePath r with
  | .ub => .ub
  | .text e =>
    match file with
    | none => .text []
    | some cs => .text ("exe:".toList ++ e ++ ids ++ copyFile 1022 cs)

/-- **C121, partial**: if the path of the program is shorter than the buffer and the map can be opened, the report ends with the whole map, lines of any length included. Missing:
the path of the program, and what happens otherwise; see the next theorems. -/
theorem C121_maps_complete_partial (p ids cs : List Char) (hp : p.length < 1024) (h0 : '\x00' ∉ cs) :
    ∃ head, mapsInfo (.ok p) ids (some cs) = .text (head ++ ids ++ cs) := by
  refine ⟨"exe:".toList, ?_⟩
  simp only [mapsInfo, exePath, show ¬ p.length + 1 > 1024 by omega, if_false, copyFile_all 1022 cs.length cs (Nat.le_refl _) h0]
  simp

/-- Case for C121: a line longer than the buffer (here of two characters) is copied in pieces. -/
example : copyFile 0 "abc\nd".toList = "abc\nd".toList := copyFile_all 0 5 _ (by decide) (by decide)

/-- **C121 is false, the program**: the report does not say which program it was: it is the same for all paths. -/
theorem C121_exe_unknown (p q ids : List Char) (file : Option (List Char)) (hp : p.length < 1024) (hq : q.length < 1024) :
    mapsInfo (.ok p) ids file = mapsInfo (.ok q) ids file := by
  simp [mapsInfo, exePath, show ¬ p.length + 1 > 1024 by omega, show ¬ q.length + 1 > 1024 by omega]

/-- **C121 is false, memory**: a path of 1024 characters or more is written behind the buffer on the stack of the handler, and if the path cannot be found an unwritten buffer is
read: in all these cases there is no report. -/
theorem C121_exe_overflow (r : Realpath) (ids : List Char) (file : Option (List Char)) :
    mapsInfo r ids file = .ub ↔ r = .fail ∨ ∃ p, r = .ok p ∧ 1024 ≤ p.length := by
  cases r with
  | fail => simp [mapsInfo, exePath]
  | ok p =>
    by_cases h : p.length + 1 > 1024
    · simp [mapsInfo, exePath, h]; omega
    · simp only [mapsInfo, exePath, h, if_false]
      cases file <;> simp <;> omega

/-- Case for C121: two programs, one report; and a long path. -/
example : mapsInfo (.ok "/bin/a".toList) "\n".toList (some []) = mapsInfo (.ok "/bin/b".toList) "\n".toList (some []) ∧
    mapsInfo (.ok (List.replicate 2000 'x')) [] none = .ub := by
  constructor
  · exact C121_exe_unknown _ _ _ _ (by decide) (by decide)
  · exact (C121_exe_overflow _ _ _).2 (.inr ⟨_, rfl, by rw [List.length_replicate]; decide⟩)

/-- **C121 is false, the map**: if the map cannot be opened, the ids that are already written are dropped as well. -/
theorem C121_ids_lost (p ids : List Char) (hp : p.length < 1024) : mapsInfo (.ok p) ids none = .text [] := by
  simp [mapsInfo, exePath, show ¬ p.length + 1 > 1024 by omega]

/-- Case for C121: the ids are gone. -/
example : mapsInfo (.ok "/bin/a".toList) "pid: 7\n".toList none = .text [] := C121_ids_lost _ _ (by decide)

/-! ## The backtrace -/

/-- `backtrace` (co_exception.cpp:41-56): the innermost 100 frames, one per line; empty if the names cannot be allocated. -/
def backtrace (frames : List (List Char)) (names : Bool) : List Char :=
  if names then (frames.take 100).flatMap (· ++ ['\n']) else []

/-- **C121, partial**: with at most 100 frames the backtrace lists all of them in order, as lines. Missing: deeper calls; see the next theorem. -/
theorem C121_trace_partial (frames : List (List Char)) (h : frames.length ≤ 100) :
    backtrace frames true = (frames.map (· ++ ['\n'])).flatten := by
  rw [backtrace, if_pos rfl, List.take_of_length_le h, List.flatMap_def]

/-- Case for C121: two frames. -/
example : backtrace ["f".toList, "main".toList] true = "f\nmain\n".toList := by decide

/-- **C121 is false, the backtrace**: what lies below the innermost 100 frames does not show. -/
theorem C121_trace_cut (inner a b : List (List Char)) (h : inner.length = 100) : backtrace (inner ++ a) true = backtrace (inner ++ b) true := by
  simp [backtrace, h]

/-- Case for C121: 100 recursive calls hide who made the first one. -/
example : backtrace (List.replicate 100 ['f'] ++ [['a']]) true = backtrace (List.replicate 100 ['f'] ++ [['b']]) true :=
  C121_trace_cut _ _ _ (by simp)

end Verif.Report
