import Verif.Base.Lts

/-! # C119: `connect` and the set of descriptors

`co_net::connect` waits with `select` on a `fd_set` on its stack (source/cocpp/io/co_net.cpp:73-102). A `fd_set` has `FD_SETSIZE` = 1024 bits, and `FD_SET`,
`FD_ISSET` and `select` address the bit of the descriptor without looking at that size. The model has the memory from the beginning of the set upwards,
as bits: the bits from 1024 on are other variables, saved registers and return addresses of the coroutine. -/

namespace Verif.FdSet

/-- The size of a `fd_set` in bits (sys/select.h). -/
def setSize : Nat := 1024

/-- Memory from the beginning of the set upwards. (Concerns co_net.cpp:73-102.) -/
abbrev Mem := Nat → Bool

/-- `FD_ZERO` (co_net.cpp:79). -/
def fdZero (m : Mem) : Mem := fun k => if k < setSize then false else m k

/-- `FD_SET` (co_net.cpp:80). -/
def fdSet (fd : Nat) (m : Mem) : Mem := upd m fd true

/-- What `select` copies back are whole words of 64 bits. (Concerns co_net.cpp:73-102.) -/
def words (n : Nat) : Nat := (n + 63) / 64 * 64

/-- What is so in the kernel when `select` is called: which descriptors are open and which become writable before the time is up; a signal
interrupts the call. (Concerns co_net.cpp:73-102.) -/
structure Kern where
  isOpen : Nat → Bool
  ready : Nat → Bool
  intr : Bool

/-- Whether some bit below `n` is set in both. (Concerns co_net.cpp:73-102.) -/
def any2 (n : Nat) (f g : Nat → Bool) : Bool := (List.range n).any fun k => f k && g k

/-- What the function does next: it calls `select`, or it has returned. (co_net.cpp:77-101.) -/
inductive Pc
  | loop
  | done (r : Int)
  deriving DecidableEq, Repr

/-- Memory and progress of the function. (co_net.cpp:73-101.) -/
structure State where
  mem : Mem
  pc : Pc

/-- What is seen: the call of `select` was for these descriptors; the thread is given away; the function returns. (Concerns co_net.cpp:73-102.) -/
inductive Ev
  | asked (f : Nat → Bool)
  | yield
  | ret (r : Int)

/-- The result of `select(n, …)` as the kernel computes it: -1 with the memory as it was if a descriptor of the set is not open (EBADF) or a signal came
(EINTR), otherwise whether a descriptor of the set is ready, and the set replaced by the ready ones of it, up to the end of a word. (select(2) as called at co_net.cpp:80.) -/
def select (n : Nat) (k : Kern) (m : Mem) : Option Bool × Mem :=
  if any2 n m (fun i => !k.isOpen i) || k.intr then (none, m)
  else (some (any2 n m k.ready), fun i => if i < n then m i && k.ready i else if i < words n then false else m i)

/-- One round of the loop, co_net.cpp:77-101, for descriptor `fd`. -/
def step (fd : Nat) (s : State) (k : Kern) : Option (State × List Ev) :=
  if s.pc ≠ .loop then none
  else
    let m := fdSet fd (fdZero s.mem)
    let asked := fun i => decide (i < fd + 1) && m i
    match select (fd + 1) k m with
    /- co_net.cpp:84-88 -/
    | (none, m') => some (⟨m', .done (-1)⟩, [.asked asked, .ret (-1)])
    /- co_net.cpp:89-93 -/
    | (some false, m') => some (⟨m', .loop⟩, [.asked asked, .yield])
    /- co_net.cpp:94-100 -/
    | (some true, m') => if m' fd then some (⟨m', .done 0⟩, [.asked asked, .ret 0]) else some (⟨m', .loop⟩, [.asked asked])

theorem any2_iff (n : Nat) (f g : Nat → Bool) : any2 n f g = true ↔ ∃ k, k < n ∧ f k = true ∧ g k = true := by
  simp [any2, List.any_eq_true]

theorem own_bits {fd : Nat} (hfd : fd < setSize) (m : Mem) (i : Nat) (hi : i < setSize) : fdSet fd (fdZero m) i = decide (i = fd) := by
  simp only [fdSet, fdZero, upd_apply]
  split
  · simp [*]
  · simp [*]

theorem far {fd : Nat} (m : Mem) (i : Nat) (hi : 1024 ≤ i) : fdSet fd (fdZero m) i = if i = fd then true else m i := by
  have h : ¬ i < setSize := by unfold setSize; omega
  simp only [fdSet, fdZero, upd_apply, h, if_false]

theorem words_le {n : Nat} (h : n ≤ setSize) : words n ≤ setSize := by unfold words setSize at *; omega

/-- **C119, small descriptors.** For every descriptor below 1024, whatever is in the memory and whatever the kernel does in each round: the bits beyond the set stay
as they are; every call of `select` asks for the descriptor alone; the function returns -1 only if the descriptor is not open or a signal came, and 0 only
if the descriptor is ready. (Partial: the bound is the restriction, see below.) -/
theorem C119_small_partial (fd : Nat) (hfd : fd < 1024) (m0 : Mem) (ks : List Kern) (s : State) (es : List Ev) (h : runs (step fd) ⟨m0, .loop⟩ ks = some (s, es)) :
    (∀ i, 1024 ≤ i → s.mem i = m0 i) ∧ (∀ f, Ev.asked f ∈ es → ∀ i, f i = decide (i = fd)) ∧
    (Ev.ret (-1) ∈ es → ∃ k ∈ ks, k.isOpen fd = false ∨ k.intr = true) ∧ (Ev.ret 0 ∈ es → ∃ k ∈ ks, k.ready fd = true) := by
  have one : ∀ s k s' e, step fd s k = some (s', e) → (∀ i, 1024 ≤ i → s'.mem i = s.mem i) ∧ (∀ f, Ev.asked f ∈ e → ∀ i, f i = decide (i = fd)) ∧
      (Ev.ret (-1) ∈ e → k.isOpen fd = false ∨ k.intr = true) ∧ (Ev.ret 0 ∈ e → k.ready fd = true) := by
    intro s k s' e h
    have ha : ∀ i, (decide (i < fd + 1) && fdSet fd (fdZero s.mem) i) = decide (i = fd) := by
      intro i
      by_cases hi : i < fd + 1
      · rw [own_bits hfd _ _ (by unfold setSize; omega)]; simp [hi]
      · simp [hi]; omega
    have hm : ∀ i, 1024 ≤ i → fdSet fd (fdZero s.mem) i = s.mem i := by
      intro i hi
      rw [far _ _ hi, if_neg (by omega)]
    have hw := words_le (n := fd + 1) (by unfold setSize; omega)
    have h1 : any2 (fd + 1) (fdSet fd (fdZero s.mem)) (fun i => !k.isOpen i) = true → k.isOpen fd = false := by
      intro hx
      obtain ⟨j, j1, j2, j3⟩ := (any2_iff _ _ _).1 hx
      rw [own_bits hfd _ _ (by unfold setSize; omega)] at j2
      have : j = fd := by simpa using j2
      subst this; simpa using j3
    simp only [step] at h
    split at h
    · cases h
    · simp only [select] at h
      by_cases hc : (any2 (fd + 1) (fdSet fd (fdZero s.mem)) (fun i => !k.isOpen i) || k.intr) = true
      · simp only [hc, if_true] at h
        cases h
        refine ⟨hm, ?_, ?_, by simp⟩
        · intro f hf; simp at hf; subst hf; exact ha
        · intro _
          rcases Bool.or_eq_true _ _ ▸ hc with hc | hc
          · exact .inl (h1 hc)
          · exact .inr hc
      · simp only [hc] at h
        have hm2 : ∀ i, 1024 ≤ i → (if i < fd + 1 then fdSet fd (fdZero s.mem) i && k.ready i else if i < words (fd + 1) then false else fdSet fd (fdZero s.mem) i) = s.mem i := by
          intro i hi
          unfold setSize at hw
          rw [if_neg (by omega), if_neg (by omega)]
          exact hm i hi
        cases hr : any2 (fd + 1) (fdSet fd (fdZero s.mem)) k.ready with
        | false =>
          simp only [hr, Bool.false_eq_true, if_false] at h
          cases h
          refine ⟨hm2, ?_, by simp, by simp⟩
          intro f hf; simp at hf; subst hf; exact ha
        | true =>
          have hrd : k.ready fd = true := by
            obtain ⟨j, j1, j2, j3⟩ := (any2_iff _ _ _).1 hr
            rw [own_bits hfd _ _ (by unfold setSize; omega)] at j2
            have : j = fd := by simpa using j2
            subst this; exact j3
          have hx : fdSet fd (fdZero s.mem) fd = true := by simp [fdSet]
          simp only [hr, Bool.false_eq_true, if_false, Nat.lt_succ_self, if_true, hx, hrd, Bool.and_self] at h
          cases h
          refine ⟨hm2, ?_, by simp, fun _ => hrd⟩
          intro f hf; simp at hf; subst hf; exact ha
  induction ks generalizing m0 es with
  | nil =>
    simp only [runs, Option.some.injEq, Prod.mk.injEq] at h
    obtain ⟨rfl, rfl⟩ := h
    simp
  | cons k ks ih =>
    obtain ⟨s1, e1, e2, h1, h2, rfl⟩ := runs_cons h
    obtain ⟨a1, a2, a3, a4⟩ := one _ _ _ _ h1
    have hs1 : s1 = ⟨s1.mem, .loop⟩ ∨ ks = [] := by
      cases ks with
      | nil => exact .inr rfl
      | cons k' ks' =>
        left
        obtain ⟨s2, e3, e4, h3, _, _⟩ := runs_cons h2
        cases s1 with
        | mk m p =>
          simp only [step] at h3
          split at h3
          · cases h3
          · rename_i hp; simp only [Decidable.not_not] at hp; rw [hp]
    rcases hs1 with hs1 | hs1
    · rw [hs1] at h2
      obtain ⟨b1, b2, b3, b4⟩ := ih _ _ h2
      refine ⟨fun i hi => (b1 i hi).trans (a1 i hi), fun f hf => (List.mem_append.1 hf).elim (a2 f) (b2 f), fun hx => ?_, fun hx => ?_⟩
      · rcases List.mem_append.1 hx with hx | hx
        · exact ⟨k, List.mem_cons_self .., a3 hx⟩
        · obtain ⟨k', k1, k2⟩ := b3 hx; exact ⟨k', List.mem_cons_of_mem _ k1, k2⟩
      · rcases List.mem_append.1 hx with hx | hx
        · exact ⟨k, List.mem_cons_self .., a4 hx⟩
        · obtain ⟨k', k1, k2⟩ := b4 hx; exact ⟨k', List.mem_cons_of_mem _ k1, k2⟩
    · subst hs1
      simp only [runs, Option.some.injEq, Prod.mk.injEq] at h2
      obtain ⟨rfl, rfl⟩ := h2
      refine ⟨a1, fun f hf => (List.mem_append.1 hf).elim (a2 f) (by simp), fun hx => ?_, fun hx => ?_⟩
      · rcases List.mem_append.1 hx with hx | hx
        · exact ⟨k, List.mem_cons_self .., a3 hx⟩
        · simp at hx
      · rcases List.mem_append.1 hx with hx | hx
        · exact ⟨k, List.mem_cons_self .., a4 hx⟩
        · simp at hx

/-- Descriptor 5: nothing is ready in the first round, the connection is there in the second. -/
example : ∃ s f g, runs (step 5) ⟨fun _ => true, .loop⟩ [⟨fun _ => true, fun _ => false, false⟩, ⟨fun _ => true, fun i => i == 5, false⟩] =
    some (s, [.asked f, .yield, .asked g, .ret 0]) ∧ s.mem 1024 = true ∧ s.mem 7 = false := ⟨_, _, _, rfl, rfl, rfl⟩

/-- **C119 is false for large descriptors: other memory is overwritten.** For every descriptor from 1024 on, every content of memory and every behaviour of the
kernel, the first round sets a bit outside the set; and if `select` does not fail, all bits behind the set up to the one of the descriptor are
replaced by whether they are descriptors that are ready: zero, if none is. -/
theorem C119_large_overwrites (fd : Nat) (hfd : 1024 ≤ fd) (m0 : Mem) (k : Kern) : ∃ s es, step fd ⟨m0, .loop⟩ k = some (s, es) ∧
    (es.getLast? = some (.ret (-1)) → s.mem fd = true) ∧
    (es.getLast? ≠ some (.ret (-1)) → ∀ i, 1024 ≤ i → i ≤ fd → k.ready i = false → s.mem i = false) := by
  simp only [step, select]
  by_cases hc : (any2 (fd + 1) (fdSet fd (fdZero m0)) (fun i => !k.isOpen i) || k.intr) = true
  · simp only [hc, if_true]
    exact ⟨_, _, rfl, fun _ => by simp [fdSet], fun h => absurd rfl h⟩
  · simp only [hc]
    cases hr : any2 (fd + 1) (fdSet fd (fdZero m0)) k.ready with
    | false =>
      refine ⟨_, _, rfl, fun h => by simp at h, fun _ i h1 h2 h3 => ?_⟩
      simp only; rw [if_pos (by omega), h3, Bool.and_false]
    | true =>
      by_cases hf : k.ready fd = true
      · have hx : fdSet fd (fdZero m0) fd = true := by simp [fdSet]
        simp only [Bool.false_eq_true, if_false, Nat.lt_succ_self, if_true, hx, hf, Bool.and_self, ne_eq, not_true_eq_false]
        refine ⟨_, _, rfl, fun h => by simp at h, fun _ i h1 h2 h3 => ?_⟩
        simp only; rw [if_pos (by omega), h3, Bool.and_false]
      · have hf : k.ready fd = false := by simpa using hf
        simp only [Bool.false_eq_true, if_false, Nat.lt_succ_self, if_true, hf, Bool.and_false, ne_eq, not_true_eq_false]
        refine ⟨_, _, rfl, fun h => by simp at h, fun _ i h1 h2 h3 => ?_⟩
        simp only; rw [if_pos (by omega), h3, Bool.and_false]

/-- Descriptor 1100, nothing is ready: a word behind the set, say a saved register, that was all ones is zero afterwards. -/
example : ∃ s f, step 1100 ⟨fun i => decide (1024 ≤ i) && decide (i < 1088), .loop⟩ ⟨fun _ => true, fun _ => false, false⟩ = some (s, [.asked f, .yield]) ∧
    ∀ i, 1024 ≤ i → i < 1088 → s.mem i = false := by
  have h0 : ∀ n f, any2 n f (fun _ => false) = false := by intro n f; simp [any2]
  simp only [step, select, Bool.not_true, h0, Bool.or_self, Bool.false_eq_true, if_false, ne_eq, not_true_eq_false]
  refine ⟨_, _, rfl, fun i h1 h2 => ?_⟩
  simp only
  rw [if_pos (by omega), Bool.and_false]

/-- **C119 is false for large descriptors: other descriptors are asked for.** If behind the set there is a bit at the place of a descriptor that is not
open, the function reports an error although the connection is established. -/
theorem C119_large_fails (fd j : Nat) (hj : 1024 ≤ j) (hjf : j < fd) (m0 : Mem) (hm : m0 j = true) (k : Kern) (ho : k.isOpen j = false) :
    ∃ s f, step fd ⟨m0, .loop⟩ k = some (s, [.asked f, .ret (-1)]) := by
  have hx : fdSet fd (fdZero m0) j = true := by
    rw [far _ _ hj, if_neg (by omega)]; exact hm
  have hc : any2 (fd + 1) (fdSet fd (fdZero m0)) (fun i => !k.isOpen i) = true := (any2_iff _ _ _).2 ⟨j, by omega, hx, by simp [ho]⟩
  simp only [step, select, hc, Bool.true_or, if_true]
  exact ⟨_, _, rfl⟩

/-- Descriptor 1030 is ready, 1025 is not open, and a variable behind the set is not zero. -/
example : ∃ s f, step 1030 ⟨fun i => i == 1025, .loop⟩ ⟨fun i => i != 1025, fun i => i == 1030, false⟩ = some (s, [.asked f, .ret (-1)]) :=
  C119_large_fails 1030 1025 (by omega) (by omega) _ rfl _ rfl

/-- **C119 is false for large descriptors: the thread is kept busy.** If behind the set there is a bit at the place of another descriptor that is writable,
the function goes round without giving the thread away, as long as the connection is not there: for any number of rounds. -/
theorem C119_large_spins (fd j : Nat) (hj : 1024 ≤ j) (hjf : j < fd) (m0 : Mem) (hm : m0 j = true) (k : Kern) (ho : ∀ i, k.isOpen i = true) (hi : k.intr = false)
    (hr : k.ready j = true) (hn : k.ready fd = false) (n : Nat) :
    ∃ s es, runs (step fd) ⟨m0, .loop⟩ (List.replicate n k) = some (s, es) ∧ s.pc = .loop ∧ ∀ e ∈ es, ∃ f, e = .asked f := by
  induction n generalizing m0 with
  | zero => exact ⟨_, _, rfl, rfl, by simp⟩
  | succ n ih =>
    have hx : fdSet fd (fdZero m0) j = true := by
      rw [far _ _ hj, if_neg (by omega)]; exact hm
    have hc : any2 (fd + 1) (fdSet fd (fdZero m0)) (fun i => !k.isOpen i) = false := by
      rw [Bool.eq_false_iff]
      intro h
      obtain ⟨i, _, _, h3⟩ := (any2_iff _ _ _).1 h
      simp [ho] at h3
    have hr2 : any2 (fd + 1) (fdSet fd (fdZero m0)) k.ready = true := (any2_iff _ _ _).2 ⟨j, by omega, hx, hr⟩
    obtain ⟨s1, f, h1, h2⟩ : ∃ m1 f, step fd ⟨m0, .loop⟩ k = some (⟨m1, .loop⟩, [.asked f]) ∧ m1 j = true := by
      simp only [step, select, hc, hi, Bool.or_self, Bool.false_eq_true, if_false, hr2, Nat.lt_succ_self, if_true, hn, Bool.and_false, ne_eq, not_true_eq_false]
      refine ⟨_, _, rfl, ?_⟩
      rw [if_pos (by omega), hx, hr]; rfl
    obtain ⟨s, es, h3, h4, h5⟩ := ih s1 h2
    refine ⟨s, .asked f :: es, ?_, h4, ?_⟩
    · rw [List.replicate_succ]
      simp only [runs, h1, h3]; rfl
    · intro e he
      rcases List.mem_cons.1 he with rfl | he
      · exact ⟨f, rfl⟩
      · exact h5 e he

/-- Descriptor 1030 waits, 1024 is writable, and a variable behind the set is odd. -/
example : ∃ s es, runs (step 1030) ⟨fun i => i == 1024, .loop⟩ (List.replicate 1000 ⟨fun _ => true, fun i => i == 1024, false⟩) = some (s, es) ∧ s.pc = .loop ∧
    ∀ e ∈ es, ∃ f, e = .asked f := C119_large_spins 1030 1024 (by omega) (by omega) _ rfl _ (fun _ => rfl) rfl rfl rfl 1000

end Verif.FdSet
