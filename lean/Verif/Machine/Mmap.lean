import Verif.Base.Lts

/-! # C117: the stacks of coroutines in the address space

Models `co_stack_factory::create_stack` and `destroy_stack` (source/cocpp/core/co_stack_factory.cpp:11-44), the functions `alloc_mem_by_mmap`,
`free_mem_by_munmap`, `set_mem_dontneed` and `shrink_mem_to_top` (source/cocpp/core/co_vos_gcc_x86_64.cpp:167-198) on an address space of pages, with
the contract of the system calls: `mmap` gives pages that were not in use, wherever the kernel likes; `munmap` takes away all pages that the range
touches; `madvise` with `MADV_DONTNEED` makes the bytes of the pages zero. A page has 4096 bytes (co_define.h:38). Addresses and bytes are natural
numbers. A coroutine writes at some depth below the top of its stack, which is where its frames are. -/

namespace Verif.Mmap

/-- Pages needed for `n` bytes; `mmap` and `munmap` round up. (Concerns co_vos_gcc_x86_64.cpp:167-198, co_stack_factory.cpp:11-44.) -/
def pages (n : Nat) : Nat := (n + 4095) / 4096

/-- Who has a page: the stack of coroutine `i`, the guard below it (there is none in the code, see `step`), something else in the process. (Concerns co_vos_gcc_x86_64.cpp:167-198, co_stack_factory.cpp:11-44.) -/
inductive Owner
  | stack (i : Nat)
  | guard (i : Nat)
  | other
  deriving DecidableEq, Repr

/-- The state: the owner of each page, the bytes, and start and size of each stack (co_stack.h). -/
structure State where
  pg : Nat → Option Owner
  mem : Nat → Nat
  stk : Nat → Option (Nat × Nat)

/-- No stacks; `pg0` and `mem0` are what the process has otherwise. (Concerns co_vos_gcc_x86_64.cpp:167-198, co_stack_factory.cpp:11-44.) -/
def State.init (used : Nat → Bool) (mem0 : Nat → Nat) : State := ⟨fun q => if used q then some .other else none, mem0, fun _ => none⟩

/-- What happens: coroutine `i` gets a stack of `size` bytes, the kernel chooses page `b`; its stack is freed; it writes `v` at depth `d` (0 is the
topmost byte); its stack is shrunk while the stack pointer is at depth `d`; other code maps, unmaps or writes. (Concerns co_vos_gcc_x86_64.cpp:167-198, co_stack_factory.cpp:11-44.) -/
inductive Act
  | create (i size b : Nat)
  | destroy (i : Nat)
  | write (i d v : Nat)
  | shrink (i d : Nat)
  | map (q : Nat)
  | unmap (q : Nat)
  | otherWrite (a v : Nat)
  deriving DecidableEq, Repr

/-- What is seen: coroutine `i` with a stack of `n` bytes writes at depth `d`; the byte belongs to somebody else; the processor
raises a page fault. (Concerns co_vos_gcc_x86_64.cpp:167-198, co_stack_factory.cpp:11-44.) -/
inductive Ev
  | uses (i d n : Nat)
  | corrupts (i : Nat) (o : Owner)
  | fault (i : Nat)
  deriving DecidableEq, Repr

/-- One step. `g` is the number of guard pages below each stack: the code has none, `g = 0`; other values serve to say what a guard would do.
`create`: lines 11-33 of co_stack_factory.cpp; a size of 0 (the coroutine of a thread itself) gets no memory. `destroy`: lines 36-44. `shrink`:
`shrink_mem_to_top(stack pointer, stack())`, co_vos_gcc_x86_64.cpp:187-198. -/
def step (g : Nat) (s : State) : Act → Option (State × List Ev)
  | .create i size b =>
    if s.stk i ≠ none then none
    else if size = 0 then some ({ s with stk := upd s.stk i (some (0, 0)) }, [])
    else if ∀ k, k < g + pages size → s.pg (b + k) = none then
      some ({ pg := fun q => if b ≤ q ∧ q < b + g then some (.guard i) else if b + g ≤ q ∧ q < b + g + pages size then some (.stack i) else s.pg q,
              mem := fun a => if b + g ≤ a / 4096 ∧ a / 4096 < b + g + pages size then 0 else s.mem a,
              stk := upd s.stk i (some ((b + g) * 4096, size)) }, [])
    else none
  | .destroy i =>
    match s.stk i with
    | none => none
    | some (p, n) =>
      if n = 0 then some ({ s with stk := upd s.stk i none }, [])
      else some ({ s with pg := fun q => if p / 4096 - g ≤ q ∧ q < p / 4096 + pages n then none else s.pg q, stk := upd s.stk i none }, [])
  | .write i d v =>
    match s.stk i with
    | none => none
    | some (p, n) =>
      if n = 0 ∨ p + n ≤ d then none
      else
        let a := p + n - 1 - d
        match s.pg (a / 4096) with
        | none | some (.guard _) => some (s, [.uses i d n, .fault i])
        | some o => some ({ s with mem := upd s.mem a v }, .uses i d n :: if o = .stack i then [] else [.corrupts i o])
  | .shrink i d =>
    match s.stk i with
    | none => none
    | some (p, n) =>
      if d < n then
        some ({ s with mem := fun a => if p / 4096 ≤ a / 4096 ∧ a / 4096 < (p + n - 1 - d) / 4096 then 0 else s.mem a }, [])
      else none
  | .map q => if s.pg q = none then some ({ s with pg := upd s.pg q (some .other) }, []) else none
  | .unmap q => if s.pg q = some .other then some ({ s with pg := upd s.pg q none }, []) else none
  | .otherWrite a v => if s.pg (a / 4096) = some .other then some ({ s with mem := upd s.mem a v }, []) else none

/-- Proof device: a stack has exactly its pages. (Concerns co_vos_gcc_x86_64.cpp:167-198, co_stack_factory.cpp:11-44.) -/
structure Inv (g : Nat) (s : State) : Prop where
  own : ∀ i p n, s.stk i = some (p, n) → 0 < n → ∃ b, p = (b + g) * 4096 ∧ (∀ q, s.pg q = some (.stack i) ↔ b + g ≤ q ∧ q < b + g + pages n) ∧
    ∀ q, s.pg q = some (.guard i) ↔ b ≤ q ∧ q < b + g
  none : ∀ i, (s.stk i = none ∨ ∃ p, s.stk i = some (p, 0)) → ∀ q, s.pg q ≠ some (.stack i) ∧ s.pg q ≠ some (.guard i)

theorem inv_init (g : Nat) (used : Nat → Bool) (mem0 : Nat → Nat) : Inv g (State.init used mem0) := by
  constructor
  · intro i p n h; simp [State.init] at h
  · intro i _ q
    simp only [State.init]
    split <;> simp

theorem inv_step (g : Nat) (s : State) (a : Act) (s' : State) (es : List Ev) (hI : Inv g s) (h : step g s a = some (s', es)) : Inv g s' := by
  obtain ⟨c1, c2⟩ := hI
  cases a with
  | create i size b =>
    simp only [step] at h
    split at h
    · cases h
    · rename_i hs
      have hs : s.stk i = none := by simpa using hs
      have hn := c2 i (.inl hs)
      split at h
      · cases h
        constructor
        · intro j p n hj hn
          simp only [upd_apply] at hj
          split at hj
          · cases hj; omega
          · exact c1 j p n hj hn
        · intro j hj
          simp only [upd_apply] at hj
          split at hj
          · rename_i hji; subst hji; exact hn
          · exact c2 j hj
      · split at h
        · rename_i hz hf
          cases h
          constructor
          · intro j p n hj hn'
            simp only [upd_apply] at hj
            split at hj
            · rename_i hji; subst hji
              cases hj
              refine ⟨b, rfl, ?_, ?_⟩
              · intro q
                simp only
                split
                · simp; omega
                · split
                  · simp; omega
                  · simp [(hn q).1]; omega
              · intro q
                simp only
                split
                · simp; omega
                · split
                  · simp; omega
                  · simp [(hn q).2]; omega
            · rename_i hji
              obtain ⟨b', h1, h2, h3⟩ := c1 j p n hj hn'
              refine ⟨b', h1, ?_, ?_⟩
              · intro q
                simp only
                rw [← h2 q]
                split
                · have := hf (q - b) (by omega)
                  rw [show b + (q - b) = q by omega] at this
                  simp [this]
                · split
                  · have := hf (q - b) (by omega)
                    rw [show b + (q - b) = q by omega] at this
                    simp [this, Ne.symm hji]
                  · rfl
              · intro q
                simp only
                rw [← h3 q]
                split
                · have := hf (q - b) (by omega)
                  rw [show b + (q - b) = q by omega] at this
                  simp [this, Ne.symm hji]
                · split
                  · have := hf (q - b) (by omega)
                    rw [show b + (q - b) = q by omega] at this
                    simp [this]
                  · rfl
          · intro j hj q
            simp only [upd_apply] at hj
            split at hj
            · rename_i hji; subst hji; simp at hj; omega
            · rename_i hji
              have := c2 j hj q
              simp only
              split
              · simp [Ne.symm hji]
              · split
                · simp [Ne.symm hji]
                · exact this
        · cases h
  | destroy i =>
    simp only [step] at h
    split at h
    · cases h
    · rename_i p n hs
      split at h
      · subst_vars
        cases h
        have hn := c2 i (.inr ⟨p, hs⟩)
        constructor
        · intro j p n hj hn
          simp only [upd_apply] at hj
          split at hj
          · cases hj
          · exact c1 j p n hj hn
        · intro j hj
          simp only [upd_apply] at hj
          split at hj
          · rename_i hji; subst hji; exact hn
          · exact c2 j hj
      · rename_i hz
        cases h
        obtain ⟨b, rfl, h2, h3⟩ := c1 i p n hs (by omega)
        have hb : (b + g) * 4096 / 4096 = b + g := by omega
        have key : ∀ q, b ≤ q → q < b + g + pages n → s.pg q = some (.stack i) ∨ s.pg q = some (.guard i) := by
          intro q q1 q2
          rcases Nat.lt_or_ge q (b + g) with q3 | q3
          · exact .inr ((h3 q).2 ⟨q1, q3⟩)
          · exact .inl ((h2 q).2 ⟨q3, q2⟩)
        constructor
        · intro j p n' hj hn'
          simp only [upd_apply] at hj
          split at hj
          · cases hj
          · rename_i hji
            obtain ⟨b', h1, h4, h5⟩ := c1 j p n' hj hn'
            refine ⟨b', h1, ?_, ?_⟩
            · intro q
              simp only [hb]
              rw [← h4 q]
              split
              · have := key q (by omega) (by omega)
                rcases this with this | this <;> simp [this, Ne.symm hji]
              · rfl
            · intro q
              simp only [hb]
              rw [← h5 q]
              split
              · have := key q (by omega) (by omega)
                rcases this with this | this <;> simp [this, Ne.symm hji]
              · rfl
        · intro j hj q
          simp only [upd_apply] at hj
          simp only [hb]
          split
          · simp
          · split at hj
            · rename_i hji; subst hji
              have := h2 q
              have := h3 q
              constructor
              · intro hx; have := (h2 q).1 hx; omega
              · intro hx; have := (h3 q).1 hx; omega
            · exact c2 j hj q
  | write i d v =>
    simp only [step] at h
    repeat' split at h
    all_goals cases h
    all_goals exact ⟨c1, c2⟩
  | shrink i d =>
    simp only [step] at h
    repeat' split at h
    all_goals cases h
    all_goals exact ⟨c1, c2⟩
  | map q =>
    simp only [step] at h
    split at h <;> cases h
    rename_i hq
    constructor
    · intro j p n hj hn
      obtain ⟨b, h1, h2, h3⟩ := c1 j p n hj hn
      refine ⟨b, h1, ?_, ?_⟩
      · intro r; rw [← h2 r]; simp only [upd_apply]; split
        · rename_i hr; subst hr; simp [hq]
        · rfl
      · intro r; rw [← h3 r]; simp only [upd_apply]; split
        · rename_i hr; subst hr; simp [hq]
        · rfl
    · intro j hj r
      simp only [upd_apply]; split
      · simp
      · exact c2 j hj r
  | unmap q =>
    simp only [step] at h
    split at h <;> cases h
    rename_i hq
    constructor
    · intro j p n hj hn
      obtain ⟨b, h1, h2, h3⟩ := c1 j p n hj hn
      refine ⟨b, h1, ?_, ?_⟩
      · intro r; rw [← h2 r]; simp only [upd_apply]; split
        · rename_i hr; subst hr; simp [hq]
        · rfl
      · intro r; rw [← h3 r]; simp only [upd_apply]; split
        · rename_i hr; subst hr; simp [hq]
        · rfl
    · intro j hj r
      simp only [upd_apply]; split
      · simp
      · exact c2 j hj r
  | otherWrite a v => simp only [step] at h; split at h <;> cases h; exact ⟨c1, c2⟩


/-- States the process can get into, from any set of pages in use and any contents of memory. (Concerns co_vos_gcc_x86_64.cpp:167-198, co_stack_factory.cpp:11-44.) -/
def Reach (g : Nat) (s : State) : Prop := ∃ used mem0 as es, runs (step g) (State.init used mem0) as = some (s, es)

theorem reach_inv {g : Nat} {s : State} (h : Reach g s) : Inv g s := by
  obtain ⟨used, mem0, as, es, h⟩ := h
  exact runs_inv (Inv g) (fun s a s' es => inv_step g s a s' es) as _ _ _ (inv_init g used mem0) h

/-- The bytes of a stack lie in its pages. -/
theorem page_of {b n a : Nat} (h1 : b * 4096 ≤ a) (h2 : a < b * 4096 + n) : b ≤ a / 4096 ∧ a / 4096 < b + pages n := by
  unfold pages; omega

/-- The owner of the page of a byte of a stack. -/
theorem owner_of {g : Nat} {s : State} (hI : Inv g s) {i p n a : Nat} (hs : s.stk i = some (p, n)) (h1 : p ≤ a) (h2 : a < p + n) :
    s.pg (a / 4096) = some (.stack i) := by
  obtain ⟨b, rfl, h3, _⟩ := hI.own i p n hs (by omega)
  exact (h3 _).2 (page_of h1 h2)

/-- **C117, separate stacks.** Whatever was created, freed, shrunk and mapped before, and wherever the kernel put it: no byte is in the stacks of
two coroutines. -/
theorem C117_disjoint (g : Nat) (s : State) (h : Reach g s) (i j : Nat) (p n p' n' : Nat) (hi : s.stk i = some (p, n)) (hj : s.stk j = some (p', n'))
    (hij : i ≠ j) (a : Nat) : ¬ ((p ≤ a ∧ a < p + n) ∧ p' ≤ a ∧ a < p' + n') := by
  rintro ⟨⟨h1, h2⟩, h3, h4⟩
  have h5 := owner_of (reach_inv h) hi h1 h2
  have h6 := owner_of (reach_inv h) hj h3 h4
  rw [h5] at h6
  cases h6
  exact hij rfl

/-- Three stacks, the second freed and its pages given to a fourth: the live ones are at different places. -/
example : ∃ s es, runs (step 0) (State.init (fun q => q == 7) (fun _ => 9))
    [.create 1 10000 20, .create 2 4097 18, .create 3 1 8, .destroy 2, .create 4 8192 18] = some (s, es) ∧
    s.stk 1 = some (81920, 10000) ∧ s.stk 3 = some (32768, 1) ∧ s.stk 4 = some (73728, 8192) ∧ s.stk 2 = none := ⟨_, _, rfl, rfl, rfl, rfl, rfl⟩

/-- The kernel may not give pages in use: creation at a place that overlaps is no step. -/
example : ∃ s es, runs (step 0) (State.init (fun _ => false) (fun _ => 0)) [.create 1 8192 20] = some (s, es) ∧ step 0 s (.create 2 8192 19) = none :=
  ⟨_, _, rfl, rfl⟩

/-- Whether an action is one of coroutine `i` itself, or the end of its stack. (Concerns co_vos_gcc_x86_64.cpp:167-198, co_stack_factory.cpp:11-44.) -/
def mine (i : Nat) : Act → Bool
  | .write j _ _ | .shrink j _ | .destroy j => j == i
  | _ => false

/-- Nobody goes deeper than the stack is large. (Concerns co_vos_gcc_x86_64.cpp:167-198, co_stack_factory.cpp:11-44.) -/
def fits : Ev → Prop
  | .uses _ d n => d < n
  | _ => True

theorem frame_step {g : Nat} {s s' : State} {a : Act} {es : List Ev} (hI : Inv g s) (h : step g s a = some (s', es)) {i p n : Nat}
    (hs : s.stk i = some (p, n)) (hm : mine i a = false) (hf : ∀ e ∈ es, fits e) :
    s'.stk i = some (p, n) ∧ ∀ x, p ≤ x → x < p + n → s'.mem x = s.mem x := by
  cases a with
  | create j size b =>
    simp only [step] at h
    split at h
    · cases h
    · rename_i hj
      have hji : i ≠ j := by rintro rfl; simp [hs] at hj
      split at h
      · cases h; exact ⟨by simpa [upd_apply, hji] using hs, fun _ _ _ => rfl⟩
      · split at h
        · rename_i hz hfree
          cases h
          refine ⟨by simpa [upd_apply, hji] using hs, fun x x1 x2 => ?_⟩
          have ho := owner_of hI hs x1 x2
          simp only
          split
          · have := hfree (x / 4096 - b) (by omega)
            rw [show b + (x / 4096 - b) = x / 4096 by omega] at this
            rw [this] at ho; cases ho
          · rfl
        · cases h
  | destroy j =>
    have hji : i ≠ j := by rintro rfl; simp [mine] at hm
    simp only [step] at h
    repeat' split at h
    all_goals cases h
    all_goals exact ⟨by simpa [upd_apply, hji] using hs, fun _ _ _ => rfl⟩
  | write j d v =>
    have hji : i ≠ j := by rintro rfl; simp [mine] at hm
    simp only [step] at h
    split at h
    · cases h
    · rename_i p' n' hj
      split at h
      · cases h
      · rename_i hd
        split at h
        · cases h; exact ⟨hs, fun _ _ _ => rfl⟩
        · cases h; exact ⟨hs, fun _ _ _ => rfl⟩
        · cases h
          have hd' : d < n' := hf (.uses j d n') (List.mem_cons_self ..)
          refine ⟨hs, fun x x1 x2 => ?_⟩
          have h1 := owner_of hI hs x1 x2
          have h2 := owner_of hI hj (a := p' + n' - 1 - d) (by omega) (by omega)
          simp only [upd_apply]
          split
          · rename_i hx; rw [hx, h2] at h1; cases h1; exact absurd rfl hji
          · rfl
  | shrink j d =>
    have hji : i ≠ j := by rintro rfl; simp [mine] at hm
    simp only [step] at h
    split at h
    · cases h
    · rename_i p' n' hj
      split at h
      · rename_i hd
        cases h
        refine ⟨hs, fun x x1 x2 => ?_⟩
        have h1 := owner_of hI hs x1 x2
        obtain ⟨b, rfl, h3, _⟩ := hI.own j p' n' hj (by omega)
        simp only
        split
        · rename_i hx
          have h2 := (h3 (x / 4096)).2 (by unfold pages; omega)
          rw [h1] at h2; cases h2; exact absurd rfl hji
        · rfl
      · cases h
  | map q => simp only [step] at h; split at h <;> cases h; exact ⟨hs, fun _ _ _ => rfl⟩
  | unmap q => simp only [step] at h; split at h <;> cases h; exact ⟨hs, fun _ _ _ => rfl⟩
  | otherWrite a v =>
    simp only [step] at h
    split at h <;> cases h
    rename_i ha
    refine ⟨hs, fun x x1 x2 => ?_⟩
    have h1 := owner_of hI hs x1 x2
    simp only [upd_apply]
    split
    · rename_i hx; rw [hx, ha] at h1; cases h1
    · rfl

/-- **C117, what others do.** As long as no coroutine goes deeper than its stack is large, the stack of `i` stays where it is and keeps every byte
while others are created and destroyed, write, shrink, map and unmap. (Partial: without the assumption it is false, see `C117_overflow_harms`.) -/
theorem C117_untouched_partial (g : Nat) (s : State) (h : Reach g s) (i p n : Nat) (hs : s.stk i = some (p, n)) (as : List Act) (s' : State)
    (es : List Ev) (hr : runs (step g) s as = some (s', es)) (hm : ∀ a ∈ as, mine i a = false) (hf : ∀ e ∈ es, fits e) :
    s'.stk i = some (p, n) ∧ ∀ x, p ≤ x → x < p + n → s'.mem x = s.mem x := by
  have hI := reach_inv h
  clear h
  induction as generalizing s es with
  | nil => simp only [runs, Option.some.injEq, Prod.mk.injEq] at hr; obtain ⟨rfl, _⟩ := hr; exact ⟨hs, fun _ _ _ => rfl⟩
  | cons a as ih =>
    obtain ⟨s1, e1, e2, h1, h2, rfl⟩ := runs_cons hr
    have hI1 := inv_step g s a s1 e1 hI h1
    obtain ⟨f1, f2⟩ := frame_step hI h1 hs (hm a (List.mem_cons_self ..)) (fun e he => hf e (List.mem_append_left _ he))
    obtain ⟨f3, f4⟩ := ih s1 f1 e2 h2 (fun a ha => hm a (List.mem_cons_of_mem _ ha)) (fun e he => hf e (List.mem_append_right _ he)) hI1
    exact ⟨f3, fun x x1 x2 => (f4 x x1 x2).trans (f2 x x1 x2)⟩

/-- Coroutine 1 has written 5 at depth 3; then 2 gets a stack directly below, fills its topmost byte, shrinks, dies; the 5 is still there. -/
example : ∃ s es s' es', runs (step 0) (State.init (fun _ => false) (fun _ => 0)) [.create 1 4096 20, .write 1 3 5] = some (s, es) ∧
    runs (step 0) s [.create 2 8192 18, .write 2 0 6, .write 2 8191 7, .shrink 2 100, .map 21, .otherWrite 86016 3, .destroy 2] = some (s', es') ∧
    (∀ e ∈ es', fits e) ∧ s'.mem 86012 = 5 :=
  ⟨_, _, _, _, rfl, rfl, by intro e he; simp at he; rcases he with rfl | rfl <;> simp [fits], rfl⟩

/-- **C117, within the stack.** A write that is not deeper than the stack is large succeeds, in the own stack. -/
theorem C117_within (g : Nat) (s : State) (h : Reach g s) (i p n d v : Nat) (hs : s.stk i = some (p, n)) (hd : d < n) :
    ∃ s', step g s (.write i d v) = some (s', [.uses i d n]) ∧ s'.mem (p + n - 1 - d) = v ∧ s'.stk = s.stk ∧
      ∀ x, x ≠ p + n - 1 - d → s'.mem x = s.mem x := by
  have h2 := owner_of (reach_inv h) hs (a := p + n - 1 - d) (by omega) (by omega)
  refine ⟨{ s with mem := upd s.mem (p + n - 1 - d) v }, ?_, by simp [upd_apply], rfl, fun x hx => by simp [upd_apply, hx]⟩
  simp only [step, hs, h2]
  rw [if_neg (by omega)]
  simp

/-- The whole depth of a stack whose size is no multiple of the page size. -/
example : ∃ s es, runs (step 0) (State.init (fun _ => false) (fun _ => 0)) [.create 1 5000 20, .write 1 4999 5] = some (s, es) ∧
    es = [.uses 1 4999 5000] ∧ s.mem 81920 = 5 := ⟨_, _, rfl, rfl, rfl⟩

/-- **C117, shrinking.** Shrinking the stack of a coroutine whose stack pointer is at depth `d` keeps the bytes in use: those at depth `d` or less. -/
theorem C117_shrink_keeps (g : Nat) (s : State) (h : Reach g s) (i p n d : Nat) (hs : s.stk i = some (p, n)) (s' : State) (es : List Ev)
    (hr : step g s (.shrink i d) = some (s', es)) : s'.stk i = some (p, n) ∧ ∀ d', d' ≤ d → s'.mem (p + n - 1 - d') = s.mem (p + n - 1 - d') := by
  simp only [step, hs] at hr
  split at hr
  · cases hr
    refine ⟨hs, fun d' hd' => ?_⟩
    simp only
    rw [if_neg]
    have : (p + n - 1 - d) / 4096 ≤ (p + n - 1 - d') / 4096 := Nat.div_le_div_right (by omega)
    omega
  · cases hr

/-- The byte at the stack pointer survives, a byte further down in another page is lost. -/
example : ∃ s es, runs (step 0) (State.init (fun _ => false) (fun _ => 0)) [.create 1 8192 20, .write 1 4000 5, .write 1 6000 6, .shrink 1 4000] = some (s, es) ∧
    s.mem (81920 + 8191 - 4000) = 5 ∧ s.mem (81920 + 8191 - 6000) = 0 := ⟨_, _, rfl, rfl, rfl⟩

/-- **C117, pages are given back.** When the stack of `i` is destroyed no page stays with it, and no page of anybody else is taken. -/
theorem C117_pages_returned (g : Nat) (s : State) (h : Reach g s) (i : Nat) (s' : State) (es : List Ev) (hr : step g s (.destroy i) = some (s', es)) :
    ∀ q, s'.pg q ≠ some (.stack i) ∧ s'.pg q ≠ some (.guard i) ∧
      (s.pg q ≠ some (.stack i) → s.pg q ≠ some (.guard i) → s'.pg q = s.pg q) := by
  have hI := reach_inv h
  have hI' := inv_step g s _ s' es hI hr
  intro q
  have hs' : s'.stk i = none := by
    simp only [step] at hr
    repeat' split at hr
    all_goals cases hr
    all_goals simp [upd_apply]
  refine ⟨(hI'.none i (.inl hs') q).1, (hI'.none i (.inl hs') q).2, fun n1 n2 => ?_⟩
  simp only [step] at hr
  split at hr
  · cases hr
  · rename_i p n hs
    split at hr
    · cases hr; rfl
    · cases hr
      obtain ⟨b, rfl, h2, h3⟩ := hI.own i p n hs (by omega)
      have hb : (b + g) * 4096 / 4096 = b + g := by omega
      simp only [hb]
      split
      · exfalso
        rcases Nat.lt_or_ge q (b + g) with q3 | q3
        · exact n2 ((h3 q).2 (by omega))
        · exact n1 ((h2 q).2 (by omega))
      · rfl

/-- A stack of 4097 bytes has two pages; both are free again. -/
example : ∃ s es, runs (step 0) (State.init (fun _ => false) (fun _ => 0)) [.create 1 4097 20, .create 2 1 22, .destroy 1] = some (s, es) ∧
    s.pg 20 = none ∧ s.pg 21 = none ∧ s.pg 22 = some (.stack 2) := ⟨_, _, rfl, rfl, rfl, rfl⟩

/-- **C117 is false of the code: too deep a call harms another coroutine.** For all sizes of two stacks, the kernel may put the second right below the
first; then the first byte below the stack of coroutine 1 is the topmost byte of a page of coroutine 2. The write succeeds, there is no fault, and
nothing is reported; if the second size is a multiple of the page size, the byte is the one of the outermost frame of 2. -/
theorem C117_overflow_harms (n m : Nat) (hn : 0 < n) (hm : 0 < m) (v : Nat) : ∃ as s s' p p', runs (step 0) (State.init (fun _ => false) (fun _ => 0)) as = some (s, []) ∧
    s.stk 1 = some (p, n) ∧ s.stk 2 = some (p', m) ∧
    step 0 s (.write 1 n v) = some (s', [.uses 1 n n, .corrupts 1 (.stack 2)]) ∧ s'.mem (p - 1) = v ∧ p' ≤ p - 1 ∧
    (m % 4096 = 0 → p - 1 = p' + m - 1) := by
  have hpm : 0 < pages m := by unfold pages; omega
  let s1 : State := ⟨fun q => if pages m ≤ q ∧ q < pages m + pages n then some (.stack 1) else none, fun _ => 0, upd (fun _ => none) 1 (some (pages m * 4096, n))⟩
  let s2 : State := ⟨fun q => if q < pages m then some (.stack 2) else s1.pg q, fun _ => 0, upd s1.stk 2 (some (0, m))⟩
  have e1 : step 0 (State.init (fun _ => false) (fun _ => 0)) (.create 1 n (pages m)) = some (s1, []) := by
    simp only [step]
    rw [if_neg (by simp [State.init]), if_neg (by omega), if_pos (by intro k hk; simp [State.init])]
    simp only [Option.some.injEq, Prod.mk.injEq, and_true, s1]
    rw [State.mk.injEq]
    refine ⟨?_, ?_, ?_⟩
    · funext q; simp [State.init]
    · funext a; simp [State.init]
    · simp [State.init]
  have e2 : step 0 s1 (.create 2 m 0) = some (s2, []) := by
    simp only [step]
    rw [if_neg (by simp [s1]), if_neg (by omega), if_pos (by intro k hk; simp only [s1]; rw [if_neg (by omega)])]
    simp only [Option.some.injEq, Prod.mk.injEq, and_true, s2]
    rw [State.mk.injEq]
    refine ⟨?_, ?_, ?_⟩
    · funext q; simp
    · funext a; simp [s1]
    · simp
  have e3 : runs (step 0) (State.init (fun _ => false) (fun _ => 0)) [.create 1 n (pages m), .create 2 m 0] = some (s2, []) := by
    simp [runs, e1, e2]
  have k1 : s2.stk 1 = some (pages m * 4096, n) := by simp [s2, s1]
  have k2 : s2.stk 2 = some (0, m) := by simp [s2]
  have ka : pages m * 4096 + n - 1 - n = pages m * 4096 - 1 := by omega
  have k3 : s2.pg ((pages m * 4096 - 1) / 4096) = some (.stack 2) := by
    simp only [s2]; rw [if_pos (by omega)]
  refine ⟨_, s2, { s2 with mem := upd s2.mem (pages m * 4096 - 1) v }, _, _, e3, k1, k2, ?_, by simp [upd_apply], by omega, ?_⟩
  · simp only [step, k1, ka, k3]
    rw [if_neg (by omega)]
    simp
  · intro hmod
    have : pages m * 4096 = m := by unfold pages; omega
    omega

/-- Two stacks of two pages: coroutine 2 has put 8 in its outermost byte; afterwards it reads 66. -/
example : ∃ s es, runs (step 0) (State.init (fun _ => false) (fun _ => 0)) [.create 1 8192 20, .create 2 8192 18, .write 2 0 8, .write 1 8192 66] = some (s, es) ∧
    es = [.uses 2 0 8192, .uses 1 8192 8192, .corrupts 1 (.stack 2)] ∧ s.mem (18 * 4096 + 8191) = 66 := ⟨_, _, rfl, rfl, rfl⟩

/-- **C117, what a guard would do.** With `g` pages below each stack that nobody may touch (`PROT_NONE`), a write up to `g` pages below the stack faults
and changes nothing. -/
theorem C117_guard (g : Nat) (s : State) (h : Reach g s) (i p n d v : Nat) (hs : s.stk i = some (p, n)) (h0 : 0 < n) (hd : n ≤ d) (hd' : d < n + g * 4096) :
    step g s (.write i d v) = some (s, [.uses i d n, .fault i]) := by
  obtain ⟨b, rfl, _, h3⟩ := (reach_inv h).own i p n hs h0
  have hp := (h3 (((b + g) * 4096 + n - 1 - d) / 4096)).2 (by omega)
  simp only [step, hs, hp]
  rw [if_neg (by omega)]

/-- One guard page, the other stack directly below it. -/
example : ∃ s es, runs (step 1) (State.init (fun _ => false) (fun _ => 0)) [.create 1 8192 20, .create 2 8192 17, .write 2 0 8, .write 1 8192 66] = some (s, es) ∧
    es = [.uses 2 0 8192, .uses 1 8192 8192, .fault 1] ∧ s.mem (18 * 4096 + 8191) = 8 := ⟨_, _, rfl, rfl, rfl⟩

end Verif.Mmap
