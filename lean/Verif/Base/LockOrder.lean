import Verif.Base.Lts

/-!
# Lock order and deadlock with coroutines on threads

Coroutines that run pieces of code made of lock operations, on threads. A mutex of the standard library (`native`) blocks the thread and with
it all the coroutines of the thread; a spinlock of the library lets the thread run others (co_spinlock.cpp:13-19). A general theorem: if locks are
taken in increasing order, then there is no deadlock. Exceptions from the order are allowed under a gate, a lock that excludes those who would
close the cycle.
-/

namespace Verif.LockOrder

/-- Lock operations: `lock` waits, `tryLock` does not (if it fails, the code continues with another branch, which is another piece of code);
`yield` is a place where the thread may run another coroutine. (Nothing in /repo: general.) -/
inductive LOp (L : Type)
  | lock (l : L)
  | tryLock (l : L)
  | unlock (l : L)
  | yield
  deriving DecidableEq, Repr

section
variable {L : Type} [DecidableEq L]

/-- Change one value of a function on locks. (Nothing in /repo: general.) -/
def set (f : L → Nat) (l : L) (n : Nat) : L → Nat := fun k => if k = l then n else f k

@[simp] theorem set_same (f : L → Nat) (l : L) (n : Nat) : set f l n l = n := by simp [set]

theorem set_other (f : L → Nat) {l k : L} (n : Nat) (h : k ≠ l) : set f l n k = f k := by simp [set, h]

theorem set_pos (h : L → Nat) (l k : L) (n : Nat) : 0 < set h l (n + 1) k ↔ k = l ∨ 0 < h k := by
  by_cases hk : k = l <;> simp [set, hk]

/-- What each coroutine has yet to do, how often it has each lock, and whom each thread runs. (Nothing in /repo: general.) -/
structure State (L : Type) where
  rest : Nat → List (LOp L)
  cnt : Nat → L → Nat
  cur : Nat → Nat

/-- Nobody is in any code; `cur`: whom the threads run first. (Nothing in /repo: general.) -/
def State.init (cur : Nat → Nat) : State L := ⟨fun _ => [], fun _ _ => 0, cur⟩

/-- Coroutine `c` goes on with `r` and has `l` `n` times. (Nothing in /repo: general.) -/
def State.put (s : State L) (c : Nat) (r : List (LOp L)) (l : L) (n : Nat) : State L :=
  { s with rest := upd s.rest c r, cnt := upd s.cnt c (set (s.cnt c) l n) }

theorem put_cnt (s : State L) (c : Nat) (r : List (LOp L)) (l : L) (n d : Nat) (k : L) :
    (s.put c r l n).cnt d k = if d = c ∧ k = l then n else s.cnt d k := by
  simp only [State.put, upd_apply]
  by_cases hd : d = c
  · subst hd; by_cases hk : k = l <;> simp [hk, set]
  · simp [hd]

/-- May the thread of `c` run another coroutine now: `c` is in no code, or at a `yield`, or spins for a spinlock that is taken. (Nothing in /repo: general.) -/
def Leaves (native : L → Bool) (s : State L) (c : Nat) : Prop :=
  s.rest c = [] ∨ (∃ r, s.rest c = .yield :: r) ∨ ∃ l r, s.rest c = .lock l :: r ∧ native l = false ∧ ∃ d, 0 < s.cnt d l

/-- One step. `thr`: the threads of the coroutines.
- `call`: a coroutine enters a piece of code.
- `first`: it takes a lock nobody has. `again`: a recursive mutex that its thread already has.
- `unlock`, `yield`.
- `switch`: a thread runs another coroutine. (Nothing in /repo: general.) -/
inductive Step (thr : Nat → Nat) (native : L → Bool) (lib : List (LOp L) → Prop) : State L → State L → Prop
  | call (s) (c b) : s.cur (thr c) = c → s.rest c = [] → lib b → Step thr native lib s { s with rest := upd s.rest c b }
  | first (s) (c l r) : s.cur (thr c) = c → (s.rest c = .lock l :: r ∨ s.rest c = .tryLock l :: r) → (∀ d, s.cnt d l = 0) →
      Step thr native lib s (s.put c r l 1)
  | again (s) (c l r) : s.cur (thr c) = c → (s.rest c = .lock l :: r ∨ s.rest c = .tryLock l :: r) → native l = true →
      (∃ d, 0 < s.cnt d l) → (∀ d, 0 < s.cnt d l → thr d = thr c) → Step thr native lib s (s.put c r l (s.cnt c l + 1))
  | unlock (s) (c l r) : s.cur (thr c) = c → s.rest c = .unlock l :: r → 0 < s.cnt c l → Step thr native lib s (s.put c r l (s.cnt c l - 1))
  | yield (s) (c r) : s.cur (thr c) = c → s.rest c = .yield :: r → Step thr native lib s { s with rest := upd s.rest c r }
  | switch (s) (c c') : s.cur (thr c) = c → thr c' = thr c → Leaves native s c → Step thr native lib s { s with cur := upd s.cur (thr c) c' }

/-- Reachable states. (Nothing in /repo: general.) -/
inductive Reach (thr : Nat → Nat) (native : L → Bool) (lib : List (LOp L) → Prop) : State L → Prop
  | init (cur) : Reach thr native lib (State.init cur)
  | step (s s') : Reach thr native lib s → Step thr native lib s s' → Reach thr native lib s'

/-- `c` waits for the lock `l`, which `d` has; `l` is not a recursive mutex of the thread of `c` itself. (Nothing in /repo: general.) -/
def Waits (thr : Nat → Nat) (native : L → Bool) (s : State L) (c d : Nat) (l : L) : Prop :=
  (∃ r, s.rest c = .lock l :: r) ∧ 0 < s.cnt d l ∧ (thr d ≠ thr c ∨ native l = false)

/-- A deadlock: coroutines each of which waits for a lock that another one of them has, or is not run because its thread is blocked by one of
them that waits for a mutex. (Nothing in /repo: general.) -/
def Deadlock (thr : Nat → Nat) (native : L → Bool) (s : State L) (D : List Nat) : Prop :=
  D ≠ [] ∧ ∀ c ∈ D, (∃ d ∈ D, ∃ l, Waits thr native s c d l) ∨
    ∃ d ∈ D, d = s.cur (thr c) ∧ d ≠ c ∧ thr d = thr c ∧ ∃ e ∈ D, ∃ l, Waits thr native s d e l ∧ native l = true

/-- A deadlock lasts: no step changes where its coroutines are, and it remains a deadlock. -/
theorem deadlock_step {thr : Nat → Nat} {native : L → Bool} {lib : List (LOp L) → Prop} {s s' : State L} {D : List Nat}
    (hd : Deadlock thr native s D) (hs : Step thr native lib s s') : Deadlock thr native s' D ∧ ∀ c ∈ D, s'.rest c = s.rest c := by
  obtain ⟨hne, hD⟩ := hd
  -- whom its thread runs and who is in `D` waits for a lock
  have hmv : ∀ c ∈ D, s.cur (thr c) = c → ∃ l r d, s.rest c = .lock l :: r ∧ 0 < s.cnt d l ∧ (thr d ≠ thr c ∨ native l = false) := by
    intro c hc hcur
    obtain ⟨d, hd, l, ⟨r, hr⟩, h1, h2⟩ | ⟨d, hd, h1, h2, _⟩ := hD c hc
    · exact ⟨l, r, d, hr, h1, h2⟩
    · rw [hcur] at h1; exact absurd h1 h2
  -- a step of a coroutine outside `D`
  have out : ∀ (c : Nat) (s' : State L), c ∉ D → (∀ d, d ≠ c → s'.rest d = s.rest d) → (∀ d, d ≠ c → s'.cnt d = s.cnt d) → s'.cur = s.cur →
      Deadlock thr native s' D ∧ ∀ d ∈ D, s'.rest d = s.rest d := by
    intro c s' hc h1 h2 h3
    have hr : ∀ d ∈ D, s'.rest d = s.rest d := fun d hd => h1 d (fun h => hc (h ▸ hd))
    have hn : ∀ d ∈ D, s'.cnt d = s.cnt d := fun d hd => h2 d (fun h => hc (h ▸ hd))
    have hw : ∀ d ∈ D, ∀ e ∈ D, ∀ l, Waits thr native s d e l → Waits thr native s' d e l := fun d hd e he l h => by
      unfold Waits at *; rw [hr d hd, hn e he]; exact h
    refine ⟨⟨hne, fun d hd => ?_⟩, hr⟩
    obtain ⟨e, he, l, hl⟩ | ⟨e, he, h4, h5, h6, f, hf, l, h7, h8⟩ := hD d hd
    · exact .inl ⟨e, he, l, hw d hd e he l hl⟩
    · exact .inr ⟨e, he, by rw [h3]; exact h4, h5, h6, f, hf, l, hw e he f hf l h7, h8⟩
  cases hs with
  | call c b hc hr _ =>
    have hcD : c ∉ D := fun h => by obtain ⟨l, r, d, h1, _⟩ := hmv c h hc; rw [hr] at h1; cases h1
    exact out c _ hcD (fun d h => upd_other _ _ h) (fun d h => rfl) rfl
  | first c l r hc hr hfree =>
    have hcD : c ∉ D := fun h => by
      obtain ⟨l', r', d, h1, h2, _⟩ := hmv c h hc
      rcases hr with hr | hr <;> rw [hr] at h1 <;> cases h1
      have := hfree d; omega
    exact out c _ hcD (fun d h => upd_other _ _ h) (fun d h => upd_other _ _ h) rfl
  | again c l r hc hr hn _ hall =>
    have hcD : c ∉ D := fun h => by
      obtain ⟨l', r', d, h1, h2, h3⟩ := hmv c h hc
      rcases hr with hr | hr <;> rw [hr] at h1 <;> cases h1
      rcases h3 with h3 | h3
      · exact h3 (hall d h2)
      · rw [hn] at h3; cases h3
    exact out c _ hcD (fun d h => upd_other _ _ h) (fun d h => upd_other _ _ h) rfl
  | unlock c l r hc hr _ =>
    have hcD : c ∉ D := fun h => by obtain ⟨l, r, d, h1, _⟩ := hmv c h hc; rw [hr] at h1; cases h1
    exact out c _ hcD (fun d h => upd_other _ _ h) (fun d h => upd_other _ _ h) rfl
  | yield c r hc hr =>
    have hcD : c ∉ D := fun h => by obtain ⟨l, r, d, h1, _⟩ := hmv c h hc; rw [hr] at h1; cases h1
    exact out c _ hcD (fun d h => upd_other _ _ h) (fun d h => rfl) rfl
  | switch c c' hc ht hlv =>
    refine ⟨⟨hne, fun d hd => ?_⟩, fun _ _ => rfl⟩
    obtain ⟨e, he, l, hl⟩ | ⟨e, he, h4, h5, h6, f, hf, l, h7, h8⟩ := hD d hd
    · exact .inl ⟨e, he, l, hl⟩
    · refine .inr ⟨e, he, ?_, h5, h6, f, hf, l, h7, h8⟩
      by_cases htd : thr d = thr c
      · -- the thread is blocked
        rw [htd, hc] at h4
        subst h4
        obtain ⟨⟨r, hr⟩, _⟩ := h7
        rcases hlv with h | ⟨r', h⟩ | ⟨l', r', h, h9, _⟩ <;> rw [hr] at h <;> cases h
        rw [h8] at h9; cases h9
      · rw [h4]; simp [upd_other _ _ htd]

/-- Where locks may be waited for, having the locks `h`: the lock is a recursive mutex that the coroutine has already; or it comes after all the
locks it has, or it has its gate; and if a lock it has is gated, it has that gate as well. At the end nothing is locked, at a `yield` no mutex. (Nothing in /repo: general.) -/
def Ord (native : L → Bool) (rank : L → Nat) (gate : L → Option L) : (L → Nat) → List (LOp L) → Prop
  | h, [] => ∀ l, h l = 0
  | h, .lock l :: r => ((0 < h l ∧ native l = true) ∨
      ((∀ k, 0 < h k → rank k < rank l ∨ ∃ g, gate l = some g ∧ 0 < h g) ∧ ∀ k g, 0 < h k → gate k = some g → 0 < h g)) ∧
        Ord native rank gate (set h l (h l + 1)) r
  | h, .tryLock l :: r => Ord native rank gate (set h l (h l + 1)) r
  | h, .unlock l :: r => 0 < h l ∧ Ord native rank gate (set h l (h l - 1)) r
  | h, .yield :: r => (∀ l, 0 < h l → native l = false) ∧ Ord native rank gate h r

/-- The invariant of executions of ordered code. (Nothing in /repo: general.) -/
structure Inv (thr : Nat → Nat) (native : L → Bool) (rank : L → Nat) (gate : L → Option L) (s : State L) : Prop where
  ord : ∀ c, Ord native rank gate (s.cnt c) (s.rest c)
  excl : ∀ c d l, 0 < s.cnt c l → 0 < s.cnt d l → thr c = thr d ∧ (native l = false → c = d)
  idle : ∀ c l, s.cur (thr c) ≠ c → native l = true → s.cnt c l = 0

theorem inv_step {thr : Nat → Nat} {native : L → Bool} {lib : List (LOp L) → Prop} {rank : L → Nat} {gate : L → Option L}
    (hlib : ∀ b, lib b → Ord native rank gate (fun _ => 0) b) (hspin : ∀ k l, native k = true → native l = false → rank l < rank k)
    (hgate : ∀ l g, gate l = some g → native l = true) {s s' : State L} (hI : Inv thr native rank gate s) (hs : Step thr native lib s s') :
    Inv thr native rank gate s' := by
  obtain ⟨h1, h2, h3⟩ := hI
  cases hs with
  | call c b hc hr hb =>
    refine ⟨fun d => ?_, h2, h3⟩
    by_cases hd : d = c
    · subst hd
      have h0 := h1 d
      rw [hr] at h0
      simp only [Ord] at h0
      have : s.cnt d = fun _ => 0 := funext h0
      simp only [upd_same, this]
      exact hlib b hb
    · simp only [upd_other _ _ hd]; exact h1 d
  | first c l r hc hr hfree =>
    refine ⟨fun d => ?_, fun d e k hd he => ?_, fun d k hd hk => ?_⟩
    · simp only [State.put]
      by_cases hd : d = c
      · subst hd
        simp only [upd_same]
        have h0 := h1 d
        have := hfree d
        rcases hr with hr | hr <;> rw [hr] at h0 <;> simp only [Ord, this] at h0
        · exact h0.2
        · exact h0
      · simp only [upd_other _ _ hd]; exact h1 d
    · rw [put_cnt] at hd he
      by_cases hkl : k = l
      · subst hkl
        have := hfree d; have := hfree e
        have hdc : d = c := by grind
        have hec : e = c := by grind
        subst hdc; subst hec; exact ⟨rfl, fun _ => rfl⟩
      · exact h2 d e k (by grind) (by grind)
    · rw [put_cnt]
      by_cases hdc : d = c
      · subst hdc; exact absurd hc hd
      · rw [if_neg (fun h => hdc h.1)]; exact h3 d k hd hk
  | again c l r hc hr hn hex hall =>
    refine ⟨fun d => ?_, fun d e k hd he => ?_, fun d k hd hk => ?_⟩
    · simp only [State.put]
      by_cases hd : d = c
      · subst hd
        simp only [upd_same]
        have h0 := h1 d
        rcases hr with hr | hr <;> rw [hr] at h0 <;> simp only [Ord] at h0
        · exact h0.2
        · exact h0
      · simp only [upd_other _ _ hd]; exact h1 d
    · rw [put_cnt] at hd he
      by_cases hkl : k = l
      · subst hkl
        have hd' : thr d = thr c := by
          by_cases hdc : d = c
          · rw [hdc]
          · exact hall d (by simpa [hdc] using hd)
        have he' : thr e = thr c := by
          by_cases hec : e = c
          · rw [hec]
          · exact hall e (by simpa [hec] using he)
        exact ⟨hd'.trans he'.symm, fun h => by rw [hn] at h; cases h⟩
      · exact h2 d e k (by grind) (by grind)
    · rw [put_cnt]
      by_cases hdc : d = c
      · subst hdc; exact absurd hc hd
      · rw [if_neg (fun h => hdc h.1)]; exact h3 d k hd hk
  | unlock c l r hc hr hpos =>
    refine ⟨fun d => ?_, fun d e k hd he => ?_, fun d k hd hk => ?_⟩
    · simp only [State.put]
      by_cases hd : d = c
      · subst hd
        simp only [upd_same]
        have h0 := h1 d
        rw [hr] at h0; simp only [Ord] at h0
        exact h0.2
      · simp only [upd_other _ _ hd]; exact h1 d
    · rw [put_cnt] at hd he
      exact h2 d e k (by grind) (by grind)
    · rw [put_cnt]
      by_cases hdc : d = c
      · subst hdc; exact absurd hc hd
      · rw [if_neg (fun h => hdc h.1)]; exact h3 d k hd hk
  | yield c r hc hr =>
    refine ⟨fun d => ?_, h2, h3⟩
    by_cases hd : d = c
    · subst hd
      simp only [upd_same]
      have h0 := h1 d
      rw [hr] at h0; simp only [Ord] at h0
      exact h0.2
    · simp only [upd_other _ _ hd]; exact h1 d
  | switch c c' hc ht hlv =>
    refine ⟨h1, h2, fun d l hd hl => ?_⟩
    by_cases hdc : d = c
    · -- the coroutine that is left has no mutex
      subst hdc
      have h0 := h1 d
      rcases hlv with h | ⟨r, h⟩ | ⟨k, r, h, hk, _⟩ <;> rw [h] at h0 <;> simp only [Ord] at h0
      · exact h0 l
      · rcases Nat.eq_zero_or_pos (s.cnt d l) with h5 | h5
        · exact h5
        · have := h0.1 l h5; rw [hl] at this; cases this
      · rcases Nat.eq_zero_or_pos (s.cnt d l) with h5 | h5
        · exact h5
        · rcases h0.1 with ⟨_, h6⟩ | ⟨h6, _⟩
          · rw [hk] at h6; cases h6
          · rcases h6 l h5 with h7 | ⟨g, h7, _⟩
            · have := hspin l k hl hk; omega
            · have := hgate k g h7; rw [hk] at this; cases this
    · refine h3 d l (fun hcd => ?_) hl
      by_cases htd : thr d = thr c
      · rw [htd, hc] at hcd; exact hdc hcd.symm
      · apply hd; simp only [upd_other _ _ htd]; exact hcd

theorem inv {thr : Nat → Nat} {native : L → Bool} {lib : List (LOp L) → Prop} {rank : L → Nat} {gate : L → Option L}
    (hlib : ∀ b, lib b → Ord native rank gate (fun _ => 0) b) (hspin : ∀ k l, native k = true → native l = false → rank l < rank k)
    (hgate : ∀ l g, gate l = some g → native l = true) {s : State L} (h : Reach thr native lib s) : Inv thr native rank gate s := by
  induction h with
  | init cur => exact ⟨fun c l => rfl, fun c d l h => by simp [State.init] at h, fun c l _ _ => rfl⟩
  | step s s' _ hs ih => exact inv_step hlib hspin hgate ih hs

/-- Of finitely many things, one of those with `P` has the greatest value. -/
theorem exists_max {α : Type} (D : List α) (P : α → Nat → Prop) (c : α) (n : Nat) (hc : c ∈ D) (hn : P c n) (B : Nat) (hB : ∀ c n, P c n → n ≤ B) :
    ∃ c ∈ D, ∃ n, P c n ∧ ∀ d ∈ D, ∀ m, P d m → m ≤ n := by
  induction hk : B - n using Nat.strongRecOn generalizing c n with
  | _ k ih =>
    rcases Classical.em (∀ d ∈ D, ∀ m, P d m → m ≤ n) with h | h
    · exact ⟨c, hc, n, hn, h⟩
    · simp only [Classical.not_forall] at h
      obtain ⟨d, hd, m, hm, hlt⟩ := h
      have := hB d m hm
      exact ih (B - m) (by omega) d m hd hm rfl

/-- **Ordered code does not deadlock.** Spinlocks come before mutexes; gated locks are mutexes; ranks are bounded. -/
theorem no_deadlock {thr : Nat → Nat} {native : L → Bool} {lib : List (LOp L) → Prop} {rank : L → Nat} {gate : L → Option L} (B : Nat)
    (hB : ∀ l, rank l ≤ B) (hlib : ∀ b, lib b → Ord native rank gate (fun _ => 0) b)
    (hspin : ∀ k l, native k = true → native l = false → rank l < rank k) (hgate : ∀ l g, gate l = some g → native l = true)
    {s : State L} (h : Reach thr native lib s) (D : List Nat) : ¬ Deadlock thr native s D := by
  obtain ⟨h1, h2, h3⟩ := inv hlib hspin hgate h
  rintro ⟨hne, hD⟩
  -- who waits
  obtain ⟨c0, hc0, d0, hd0, l0, hw0⟩ : ∃ c ∈ D, ∃ d ∈ D, ∃ l, Waits thr native s c d l := by
    obtain ⟨c, hc⟩ := List.exists_mem_of_ne_nil D hne
    rcases hD c hc with h | ⟨d, hd, _, _, _, e, he, l, hw, _⟩
    · exact ⟨c, hc, h⟩
    · exact ⟨d, hd, e, he, l, hw⟩
  -- whoever has a mutex and is in `D` waits for a lock
  have hwait : ∀ d ∈ D, ∀ l, 0 < s.cnt d l → native l = true → ∃ e ∈ D, ∃ k, Waits thr native s d e k := by
    intro d hd l hl hn
    rcases hD d hd with h | ⟨e, _, h4, h5, _⟩
    · exact h
    · have := h3 d l (fun h => h5 (h4.trans h)) hn; omega
  -- what the order says of one who waits
  have hord : ∀ d e k, Waits thr native s d e k → (∀ l, 0 < s.cnt d l → rank l < rank k ∨ ∃ g, gate k = some g ∧ 0 < s.cnt d g) ∧
      ∀ l g, 0 < s.cnt d l → gate l = some g → 0 < s.cnt d g := by
    rintro d e k ⟨⟨r, hr⟩, h4, h5⟩
    have h0 := h1 d
    rw [hr] at h0
    simp only [Ord] at h0
    rcases h0.1 with ⟨h6, h7⟩ | h6
    · rcases h5 with h5 | h5
      · exact absurd (h2 e d k h4 h6).1 h5
      · rw [h7] at h5; cases h5
    · exact h6
  obtain ⟨c, hc, n, ⟨d, hd, l, hw, rfl⟩, hmax⟩ := exists_max D (fun c n => ∃ d ∈ D, ∃ l, Waits thr native s c d l ∧ rank l = n) c0 (rank l0) hc0
    ⟨d0, hd0, l0, hw0, rfl⟩ B (by rintro c n ⟨d, _, l, _, rfl⟩; exact hB l)
  -- the one who has the lock waits too
  obtain ⟨e, he, k, hk⟩ : ∃ e ∈ D, ∃ k, Waits thr native s d e k := by
    by_cases hn : native l = true
    · exact hwait d hd l hw.2.1 hn
    · rcases hD d hd with h | ⟨e, he, h4, h5, h6, f, hf, k, h7, h8⟩
      · exact h
      · have := hmax e he _ ⟨f, hf, k, h7, rfl⟩
        have := hspin k l h8 (by simpa using hn)
        omega
  obtain ⟨h4, h5⟩ := hord d e k hk
  rcases h4 l hw.2.1 with h6 | ⟨g, h6, h7⟩
  · have := hmax d hd _ ⟨e, he, k, hk, rfl⟩; omega
  · -- the gate excludes whoever has the lock `k`
    have hkn := hgate k g h6
    obtain ⟨f, hf, k', hk'⟩ := hwait e he k hk.2.1 hkn
    have h8 := (hord e f k' hk').2 k g hk.2.1 h6
    have h9 := h2 d e g h7 h8
    rcases hk.2.2 with h10 | h10
    · exact h10 h9.1.symm
    · rw [hkn] at h10; cases h10

/-! ## Checking code piece by piece -/

/-- May `l` be waited for with the locks `h`: the condition of `Ord`. (Nothing in /repo: general.) -/
def Can (native : L → Bool) (rank : L → Nat) (gate : L → Option L) (h : L → Nat) (l : L) : Prop :=
  (0 < h l ∧ native l = true) ∨
    ((∀ k, 0 < h k → rank k < rank l ∨ ∃ g, gate l = some g ∧ 0 < h g) ∧ ∀ k g, 0 < h k → gate k = some g → 0 < h g)

/-- The locks after a piece of code. (Nothing in /repo: general.) -/
def after : (L → Nat) → List (LOp L) → L → Nat
  | h, [] => h
  | h, .lock l :: r => after (set h l (h l + 1)) r
  | h, .tryLock l :: r => after (set h l (h l + 1)) r
  | h, .unlock l :: r => after (set h l (h l - 1)) r
  | h, .yield :: r => after h r

/-- The checks of `Ord` along a piece of code, without the last one. (Nothing in /repo: general.) -/
def chk (native : L → Bool) (rank : L → Nat) (gate : L → Option L) : (L → Nat) → List (LOp L) → Prop
  | _, [] => True
  | h, .lock l :: r => Can native rank gate h l ∧ chk native rank gate (set h l (h l + 1)) r
  | h, .tryLock l :: r => chk native rank gate (set h l (h l + 1)) r
  | h, .unlock l :: r => 0 < h l ∧ chk native rank gate (set h l (h l - 1)) r
  | h, .yield :: r => (∀ l, 0 < h l → native l = false) ∧ chk native rank gate h r

theorem after_app (h : L → Nat) (a b : List (LOp L)) : after h (a ++ b) = after (after h a) b := by
  induction a generalizing h with
  | nil => rfl
  | cons o a ih => cases o <;> simp [after, ih]

theorem chk_app (native : L → Bool) (rank : L → Nat) (gate : L → Option L) (h : L → Nat) (a b : List (LOp L)) :
    chk native rank gate h (a ++ b) ↔ chk native rank gate h a ∧ chk native rank gate (after h a) b := by
  induction a generalizing h with
  | nil => simp [chk, after]
  | cons o a ih => cases o <;> simp [chk, after, ih, and_assoc]

theorem ord_of_chk (native : L → Bool) (rank : L → Nat) (gate : L → Option L) (h : L → Nat) (a : List (LOp L)) (hc : chk native rank gate h a)
    (ha : ∀ l, after h a l = 0) : Ord native rank gate h a := by
  induction a generalizing h with
  | nil => exact ha
  | cons o a ih =>
    cases o with
    | lock l => exact ⟨hc.1, ih _ hc.2 ha⟩
    | tryLock l => exact ih _ hc ha
    | unlock l => exact ⟨hc.1, ih _ hc.2 ha⟩
    | yield => exact ⟨hc.1, ih _ hc.2 ha⟩

theorem set_undo (h : L → Nat) (l : L) : set (set h l (h l + 1)) l (set h l (h l + 1) l - 1) = h := by
  funext k; by_cases hk : k = l <;> simp [set, hk]

/-- Take `l`, do `b`, give `l` back. (Nothing in /repo: general.) -/
def scope (l : L) (b : List (LOp L)) : List (LOp L) := [.lock l] ++ b ++ [.unlock l]

/-- Take `l` without waiting, do `b`, give `l` back. (Nothing in /repo: general.) -/
def tscope (l : L) (b : List (LOp L)) : List (LOp L) := [.tryLock l] ++ b ++ [.unlock l]

/-- A piece of code leaves the locks as they were, whatever they were. (Nothing in /repo: general.) -/
def Bal (b : List (LOp L)) : Prop := ∀ h, after h b = h

theorem Bal.nil : Bal ([] : List (LOp L)) := fun _ => rfl
theorem Bal.app {a b : List (LOp L)} (ha : Bal a) (hb : Bal b) : Bal (a ++ b) := fun h => by rw [after_app, ha, hb]
theorem Bal.scope {l : L} {b : List (LOp L)} (hb : Bal b) : Bal (scope l b) := fun h => by
  simp only [LockOrder.scope, after_app, after, hb _, set_undo]
theorem Bal.tscope {l : L} {b : List (LOp L)} (hb : Bal b) : Bal (tscope l b) := fun h => by
  simp only [LockOrder.tscope, after_app, after, hb _, set_undo]
theorem Bal.flatMap {α : Type} {as : List α} {f : α → List (LOp L)} (hf : ∀ a, Bal (f a)) : Bal (as.flatMap f) := by
  induction as with
  | nil => exact Bal.nil
  | cons a as ih => exact (hf a).app ih

/-! ## Two coroutines on two threads -/

/-- A piece of code runs alone: what is unlocked is locked, a spinlock is not taken twice. (Nothing in /repo: general.) -/
def runnable (native : L → Bool) : (L → Nat) → List (LOp L) → Bool
  | _, [] => true
  | h, .lock l :: r => (h l == 0 || native l) && runnable native (set h l (h l + 1)) r
  | h, .tryLock l :: r => (h l == 0 || native l) && runnable native (set h l (h l + 1)) r
  | h, .unlock l :: r => decide (0 < h l) && runnable native (set h l (h l - 1)) r
  | h, .yield :: r => runnable native h r

/-- The code takes none of the locks `h`. (Nothing in /repo: general.) -/
def apart (h : L → Nat) (b : List (LOp L)) : Bool :=
  b.all fun o => match o with
    | .lock l => h l == 0
    | .tryLock l => h l == 0
    | _ => true

/-- A coroutine whose thread runs it goes through a piece of code whose locks no other coroutine has. -/
theorem solo (native : L → Bool) (lib : List (LOp L) → Prop) (c : Nat) (b r : List (LOp L)) (s : State L) (h : Reach id native lib s)
    (hcur : s.cur c = c) (hr : s.rest c = b ++ r) (hrun : runnable native (s.cnt c) b = true) (hap : ∀ d, d ≠ c → apart (s.cnt d) b = true) :
    ∃ s', Reach id native lib s' ∧ s'.cur = s.cur ∧ s'.rest = upd s.rest c r ∧ s'.cnt = upd s.cnt c (after (s.cnt c) b) := by
  induction b generalizing s with
  | nil => exact ⟨s, h, rfl, (funext fun d => by by_cases hd : d = c <;> simp_all [upd]), funext fun d => by by_cases hd : d = c <;> simp_all [upd, after]⟩
  | cons o b ih =>
    have upd2 : ∀ {α : Type} (f : Nat → α) (x y : α), upd (upd f c x) c y = upd f c y := fun f x y => funext fun d => by
      by_cases hd : d = c <;> simp [upd, hd]
    have take : ∀ l, (o = .lock l ∨ o = .tryLock l) → (s.cnt c l == 0 || native l) = true → runnable native (set (s.cnt c) l (s.cnt c l + 1)) b = true →
        ∃ s', Reach id native lib s' ∧ s'.cur = s.cur ∧ s'.rest = upd s.rest c r ∧ s'.cnt = upd s.cnt c (after (set (s.cnt c) l (s.cnt c l + 1)) b) := by
      intro l ho hn hrun
      have hoth : ∀ d, d ≠ c → s.cnt d l = 0 := fun d hd => by
        have := hap d hd; rcases ho with rfl | rfl <;> simp [apart] at this <;> exact this.1
      have hr' : s.rest c = .lock l :: (b ++ r) ∨ s.rest c = .tryLock l :: (b ++ r) := by rcases ho with rfl | rfl <;> simp [hr]
      have hst : Step id native lib s (s.put c (b ++ r) l (s.cnt c l + 1)) := by
        rcases Nat.eq_zero_or_pos (s.cnt c l) with h0 | h0
        · rw [h0]
          exact .first s c l _ hcur hr' (fun d => by by_cases hd : d = c; exact hd ▸ h0; exact hoth d hd)
        · refine .again s c l _ hcur hr' (by simpa [Nat.pos_iff_ne_zero.mp h0] using hn) ⟨c, h0⟩ (fun d hd => ?_)
          by_cases hdc : d = c
          · rw [hdc]
          · rw [hoth d hdc] at hd; omega
      obtain ⟨s', g1, g2, g3, g4⟩ := ih _ (.step _ _ h hst) hcur (by simp [State.put]) (by simpa [State.put] using hrun) (fun d hd => by
        have := hap d hd
        simp only [apart, List.all_cons, Bool.and_eq_true] at this
        simpa [State.put, upd_other _ _ hd, apart] using this.2)
      exact ⟨s', g1, g2, by rw [g3]; simp [State.put, upd2], by rw [g4]; simp [State.put, upd2]⟩
    have hap' : ∀ d, d ≠ c → apart (s.cnt d) b = true := fun d hd => by
      have := hap d hd
      simp only [apart, List.all_cons, Bool.and_eq_true] at this
      exact this.2
    cases o with
    | lock l => simp only [runnable, Bool.and_eq_true] at hrun; exact take l (.inl rfl) hrun.1 hrun.2
    | tryLock l => simp only [runnable, Bool.and_eq_true] at hrun; exact take l (.inr rfl) hrun.1 hrun.2
    | unlock l =>
      simp only [runnable, Bool.and_eq_true, decide_eq_true_eq] at hrun
      obtain ⟨s', g1, g2, g3, g4⟩ := ih _ (.step _ _ h (.unlock s c l (b ++ r) hcur hr hrun.1)) hcur (by simp [State.put])
        (by simpa [State.put] using hrun.2) (fun d hd => by simpa [State.put, upd_other _ _ hd] using hap' d hd)
      exact ⟨s', g1, g2, by rw [g3]; simp [State.put, upd2], by rw [g4]; simp [State.put, upd2, after]⟩
    | yield =>
      simp only [runnable] at hrun
      obtain ⟨s', g1, g2, g3, g4⟩ := ih _ (.step _ _ h (.yield s c (b ++ r) hcur hr)) hcur (by simp) hrun hap'
      exact ⟨s', g1, g2, by rw [g3]; simp [upd2], by rw [g4]; simp [after]⟩

/-- Two pieces of code, each of which gets to where it waits for a lock that the other has by then, make a deadlock of the coroutines 0 and 1
on the threads 0 and 1. -/
theorem dead_two (native : L → Bool) (lib : List (LOp L) → Prop) (a b r q : List (LOp L)) (k l : L) (ha : lib (a ++ .lock k :: r))
    (hb : lib (b ++ .lock l :: q)) (hra : runnable native (fun _ => 0) a = true) (hrb : runnable native (fun _ => 0) b = true)
    (hab : apart (after (fun _ => 0) a) b = true) (hl : 0 < after (fun _ => 0) a l) (hk : 0 < after (fun _ => 0) b k) :
    ∃ s, Reach id native lib s ∧ Deadlock id native s [0, 1] ∧ s.rest 0 = .lock k :: r ∧ s.rest 1 = .lock l :: q := by
  have hz : ∀ b : List (LOp L), apart (fun _ => 0) b = true := fun b => by
    simp only [apart, List.all_eq_true]; intro o _; cases o <;> rfl
  obtain ⟨s1, g1, g2, g3, g4⟩ := solo native lib 0 a (.lock k :: r) _ (.step _ _ (.init id) (.call _ 0 _ rfl rfl ha)) rfl rfl hra (fun _ _ => hz _)
  have e1 : s1.rest 1 = [] := by rw [g3]; rfl
  have c1 : s1.cnt 1 = fun _ => 0 := by rw [g4]; rfl
  have c0 : s1.cnt 0 = after (fun _ => 0) a := by rw [g4]; rfl
  have r0 : s1.rest 0 = .lock k :: r := by rw [g3]; rfl
  have u1 : s1.cur 1 = 1 := by rw [g2]; rfl
  obtain ⟨s2, q1, q2, q3, q4⟩ := solo native lib 1 b (.lock l :: q) _ (.step _ _ g1 (.call _ 1 _ u1 e1 hb)) u1 (by simp) (by rw [c1]; exact hrb)
    (fun d hd => by
      by_cases h0 : d = 0
      · subst h0; rw [c0]; exact hab
      · have : s1.cnt d = fun _ => 0 := by rw [g4]; simp [upd, h0, State.init]
        rw [this]; exact hz _)
  have f0 : s2.rest 0 = .lock k :: r := by rw [q3]; exact r0
  have f1 : s2.rest 1 = .lock l :: q := by rw [q3]; rfl
  have n0 : s2.cnt 0 = after (fun _ => 0) a := by rw [q4]; exact c0
  have n1 : s2.cnt 1 = after (fun _ => 0) b := by rw [q4]; simp only [upd_same, c1]
  refine ⟨s2, q1, ⟨by simp, fun c hc => .inl ?_⟩, f0, f1⟩
  rcases List.mem_cons.mp hc with rfl | hc
  · exact ⟨1, by simp, k, ⟨r, f0⟩, by rw [n1]; exact hk, .inl (by decide)⟩
  · have : c = 1 := by simpa using hc
    subst this
    exact ⟨0, by simp, l, ⟨q, f1⟩, by rw [n0]; exact hl, .inl (by decide)⟩

/-- Taking two mutexes in opposite orders deadlocks, and taking them in the same order does not. -/
example : (∃ s, Reach id (fun _ => true) (fun b => b = scope 1 (scope 2 []) ∨ b = scope 2 (scope 1 [])) s ∧ Deadlock id (fun _ : Nat => true) s [0, 1]) ∧
    ∀ (thr : Nat → Nat) s D, Reach thr (fun _ => true) (fun b => b = scope 1 (scope 2 [])) s → ¬ Deadlock thr (fun _ : Nat => true) s D := by
  refine ⟨?_, fun thr s D h => ?_⟩
  · obtain ⟨s, h1, h2, _⟩ := dead_two (fun _ => true) (fun b => b = scope 1 (scope 2 []) ∨ b = scope 2 (scope 1 [])) [.lock 1] [.lock 2]
      [.unlock 2, .unlock 1] [.unlock 1, .unlock 2] 2 1 (.inl rfl) (.inr rfl) (by decide) (by decide) (by decide) (by decide) (by decide)
    exact ⟨s, h1, h2⟩
  refine no_deadlock (rank := fun l => min l 3) (gate := fun _ => none) 3 (by intro l; omega) ?_ (by simp) (by simp) h D
  rintro b rfl
  refine ord_of_chk _ _ _ _ _ ?_ (fun l => congrFun ((Bal.scope (Bal.scope Bal.nil)) _) l)
  refine ⟨.inr ⟨fun k hk => absurd hk (by simp), by simp⟩, .inr ⟨fun k hk => ?_, by simp⟩, by simp, ?_, trivial⟩
  · have : k = 1 := by by_cases h : k = 1 <;> simp_all [set]
    subst this; decide
  · simp [set]

/-- With a gate the order may be violated: those who take 2 before 1 and those who take 1 before 2 first take 0. -/
example : ∀ (thr : Nat → Nat) s D, Reach thr (fun l => l != 0) (fun b => b = scope 0 (scope 1 (scope 2 [])) ∨ b = scope 0 (scope 2 (scope 1 []))) s →
    ¬ Deadlock thr (fun l : Nat => l != 0) s D := by
  intro thr s D h
  refine no_deadlock (rank := fun l => min l 3) (gate := fun l => if l = 1 then some 0 else none) 3 (by intro l; omega) ?_
    (by simp; omega) (by simp) h D
  rintro b (rfl | rfl)
  all_goals
    refine ord_of_chk _ _ _ _ _ ?_ (fun l => congrFun ((Bal.scope (Bal.scope (Bal.scope Bal.nil))) _) l)
    simp [scope, chk, Can, set]
    try grind

end
end Verif.LockOrder
