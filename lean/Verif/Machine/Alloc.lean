import Verif.Base.Lts

/-! # C118: preemption and the memory allocator

The switch signal interrupts a coroutine anywhere outside a preemption guard, so also inside `malloc` or `free`. The handler itself uses the allocator:
`switch_from_outside` (source/cocpp/core/co_vos_gcc_x86_64.cpp:142-166) calls `prepare_to_switch`, that calls `next_ctx__` (co_env.cpp:217-228) and that
`choose_ctx_from_normal_list__`, where `list::remove` frees a node and `list::push_back` allocates one (co_env.cpp:537-541). There is always a node to
move when the interrupted coroutine is not waiting, because the coroutine is in the list itself.

The allocator is modelled after glibc: a call is served either from the cache of the thread, which is changed without a lock and must not be entered
twice (`fast`), or from the arena of the thread, under the lock of the arena (`slow`). Which of the two is left open. -/

namespace Verif.Alloc

/-- Who is inside the allocator: the code of coroutine `c`, or the signal handler of thread `t`. (Concerns co_vos_gcc_x86_64.cpp:142-166, co_env.cpp:217-228.) -/
inductive Who
  | co (c : Nat)
  | handler (t : Nat)
  deriving DecidableEq, Repr

/-- Where a coroutine is: in its own code, in the middle of a change to the cache of thread `t`, waiting for the lock of arena `a`, holding it. (e.g. the allocation in co_env.cpp:537-541.) -/
inductive Pc
  | user
  | fast (t : Nat)
  | want (a : Nat)
  | slow (a : Nat)
  deriving DecidableEq, Repr

/-- The signal handler on a thread: not active; past `can_force_schedule` and `try_lock_schedule`, so it holds the scheduling lock, before it moves
the node (`chosen`); inside the allocator. (co_vos_gcc_x86_64.cpp:142-166.) -/
inductive H
  | idle
  | chosen
  | fast
  | want
  | slow
  deriving DecidableEq, Repr

/-- The state: where each coroutine is, which thread it belongs to (`co_ctx::env()`), which coroutine a thread runs, the count of the scheduling lock from
preemption guards (co_env.cpp:801-816), the handlers, who is in the cache of a thread, who holds the lock of an arena. -/
structure State where
  pc : Nat → Pc
  home : Nat → Nat
  cur : Nat → Nat
  cnt : Nat → Nat
  h : Nat → H
  cache : Nat → Option Who
  own : Nat → Option Who

/-- At the start all coroutines are in their own code and no guard is set. `home` and `cur` are given. (Concerns co_vos_gcc_x86_64.cpp:142-166, co_env.cpp:217-228.) -/
def State.init (home cur : Nat → Nat) : State := ⟨fun _ => .user, home, cur, fun _ => 0, fun _ => .idle, fun _ => none, fun _ => none⟩

/-- What happens. On thread `t` the current coroutine enters and leaves the allocator, sets and removes a preemption guard, switches to coroutine `c`;
the switch signal arrives; the handler allocates, gets the lock it waited for, and switches to `c`; the monitor moves coroutine `c` to thread `t`. (Concerns co_vos_gcc_x86_64.cpp:142-166, co_env.cpp:217-228.) -/
inductive Act
  | enterFast (t : Nat)
  | enterSlow (t : Nat)
  | retry (t : Nat)
  | leave (t : Nat)
  | guard (t : Nat)
  | unguard (t : Nat)
  | yield (t c : Nat)
  | signal (t : Nat)
  | hFast (t : Nat)
  | hSlow (t : Nat)
  | hRetry (t : Nat)
  | hDone (t c : Nat)
  | move (c t : Nat)
  deriving DecidableEq, Repr

/-- What is seen: the allocator is entered on `t`, with `n` guards set; it is left; the cache of a thread is entered twice, which is undefined behaviour;
thread `t` switches to `c`; somebody gets the lock of arena `a`. (Concerns co_vos_gcc_x86_64.cpp:142-166, co_env.cpp:217-228.) -/
inductive Ev
  | enter (t n : Nat)
  | left (t : Nat)
  | broken (t : Nat)
  | switched (t c : Nat)
  | gets (a : Nat) (w : Who)
  deriving DecidableEq, Repr

/-- One step. `ar t` is the arena of thread `t`. `ha`: the handler allocates, as in the code; `false` is a handler that does not, to see what would
be left of the problem. The signal is blocked while its handler runs (source/cocpp/exception/co_exception.cpp:83-94 sets no `SA_NODEFER`). `move` is
`redistribute_ctx__` and `steal_ctx_routine__` (co_manager.cpp:266-303, 441-483): it needs the scheduling lock of the thread and its count at zero, and
takes only coroutines that are not running (`can_move`, co_ctx.cpp:166-169). Simplified: switching without the signal happens in user code only and
does not use the allocator; priorities and waiting are left out. -/
def step (ha : Bool) (ar : Nat → Nat) (s : State) : Act → Option (State × List Ev)
  | .enterFast t =>
    if s.h t ≠ .idle ∨ s.pc (s.cur t) ≠ .user then none
    else match s.cache t with
      | some _ => some (s, [.enter t (s.cnt t), .broken t])
      | none => some ({ s with pc := upd s.pc (s.cur t) (.fast t), cache := upd s.cache t (some (.co (s.cur t))) }, [.enter t (s.cnt t)])
  | .enterSlow t =>
    if s.h t ≠ .idle ∨ s.pc (s.cur t) ≠ .user then none
    else match s.own (ar t) with
      | some _ => some ({ s with pc := upd s.pc (s.cur t) (.want (ar t)) }, [.enter t (s.cnt t)])
      | none => some ({ s with pc := upd s.pc (s.cur t) (.slow (ar t)), own := upd s.own (ar t) (some (.co (s.cur t))) },
          [.enter t (s.cnt t), .gets (ar t) (.co (s.cur t))])
  | .retry t =>
    if s.h t ≠ .idle then none
    else match s.pc (s.cur t) with
      | .want a => if s.own a = none then
          some ({ s with pc := upd s.pc (s.cur t) (.slow a), own := upd s.own a (some (.co (s.cur t))) }, [.gets a (.co (s.cur t))]) else none
      | _ => none
  | .leave t =>
    if s.h t ≠ .idle then none
    else match s.pc (s.cur t) with
      | .fast t' => some ({ s with pc := upd s.pc (s.cur t) .user, cache := upd s.cache t' none }, [.left t])
      | .slow a => some ({ s with pc := upd s.pc (s.cur t) .user, own := upd s.own a none }, [.left t])
      | _ => none
  | .guard t => if s.h t ≠ .idle ∨ s.pc (s.cur t) ≠ .user then none else some ({ s with cnt := upd s.cnt t (s.cnt t + 1) }, [])
  | .unguard t =>
    if s.h t ≠ .idle ∨ s.pc (s.cur t) ≠ .user ∨ s.cnt t = 0 then none else some ({ s with cnt := upd s.cnt t (s.cnt t - 1) }, [])
  | .yield t c =>
    if s.h t ≠ .idle ∨ s.pc (s.cur t) ≠ .user ∨ s.cnt t ≠ 0 ∨ s.home c ≠ t then none
    else some ({ s with cur := upd s.cur t c }, [.switched t c])
  | .signal t => if s.h t ≠ .idle then none else if s.cnt t ≠ 0 then some (s, []) else some ({ s with h := upd s.h t .chosen }, [])
  | .hFast t =>
    if s.h t ≠ .chosen ∨ ha = false then none
    else match s.cache t with
      | some _ => some (s, [.broken t])
      | none => some ({ s with h := upd s.h t .fast, cache := upd s.cache t (some (.handler t)) }, [])
  | .hSlow t =>
    if s.h t ≠ .chosen ∨ ha = false then none
    else match s.own (ar t) with
      | some _ => some ({ s with h := upd s.h t .want }, [])
      | none => some ({ s with h := upd s.h t .slow, own := upd s.own (ar t) (some (.handler t)) }, [.gets (ar t) (.handler t)])
  | .hRetry t =>
    if s.h t ≠ .want ∨ s.own (ar t) ≠ none then none
    else some ({ s with h := upd s.h t .slow, own := upd s.own (ar t) (some (.handler t)) }, [.gets (ar t) (.handler t)])
  | .hDone t c =>
    if s.home c ≠ t then none
    else match s.h t with
      | .fast => some ({ s with h := upd s.h t .idle, cache := upd s.cache t none, cur := upd s.cur t c }, [.switched t c])
      | .slow => some ({ s with h := upd s.h t .idle, own := upd s.own (ar t) none, cur := upd s.cur t c }, [.switched t c])
      | .chosen => if ha then none else some ({ s with h := upd s.h t .idle, cur := upd s.cur t c }, [.switched t c])
      | _ => none
  | .move c t =>
    if s.h (s.home c) ≠ .idle ∨ s.cnt (s.home c) ≠ 0 ∨ s.cur (s.home c) = c then none else some ({ s with home := upd s.home c t }, [])

/-- Proof device. In programs that enter the allocator only under a guard: who is inside is running, under a guard, and no handler is active there. (Concerns co_vos_gcc_x86_64.cpp:142-166, co_env.cpp:217-228.) -/
structure Inv (ar : Nat → Nat) (s : State) : Prop where
  home : ∀ t, s.home (s.cur t) = t
  idle : ∀ c, s.pc c ≠ .user → s.cur (s.home c) = c ∧ 0 < s.cnt (s.home c)
  hc : ∀ t, s.h t ≠ .idle → s.cnt t = 0
  fast : ∀ c t, s.pc c = .fast t → s.home c = t
  cc : ∀ t c, s.cache t = some (.co c) → s.pc c = .fast t
  ch : ∀ t t', s.cache t = some (.handler t') → t' = t ∧ s.h t = .fast
  oc : ∀ a c, s.own a = some (.co c) → s.pc c = .slow a
  oh : ∀ a t, s.own a = some (.handler t) → ar t = a ∧ s.h t = .slow

/-- Every entry into the allocator by a coroutine is under a preemption guard. (Concerns co_vos_gcc_x86_64.cpp:142-166, co_env.cpp:217-228.) -/
def guarded : Ev → Prop
  | .enter _ n => 0 < n
  | _ => True

theorem inv_init (ar home cur : Nat → Nat) (hh : ∀ t, home (cur t) = t) : Inv ar (State.init home cur) := by
  constructor <;> simp [State.init, hh]

theorem inv_step (ha : Bool) (ar : Nat → Nat) (s : State) (a : Act) (s' : State) (es : List Ev) (hI : Inv ar s) (h : step ha ar s a = some (s', es))
    (hg : ∀ e ∈ es, guarded e) : Inv ar s' := by
  have nodup : ∀ t t', s.cur t = s.cur t' → t = t' := fun t t' e => by rw [← hI.home t, e, hI.home t']
  obtain ⟨i1, i2, i3, i4, i5, i6, i7, i8⟩ := hI
  cases a with
  | enterFast t =>
    simp only [step] at h
    split at h
    · cases h
    · rename_i hu
      have hu1 : s.h t = .idle := by simp only [not_or, Decidable.not_not] at hu; exact hu.1
      have hu2 : s.pc (s.cur t) = .user := by simp only [not_or, Decidable.not_not] at hu; exact hu.2
      split at h
      · cases h; exact ⟨i1, i2, i3, i4, i5, i6, i7, i8⟩
      · rename_i hc
        cases h
        have hn : 0 < s.cnt t := hg _ (List.mem_singleton_self _)
        refine ⟨i1, ?_, i3, ?_, ?_, ?_, ?_, i8⟩
        · intro c
          simp only [upd_apply]
          split
          · rename_i e; subst e; intro _; simp [i1, hn]
          · exact i2 c
        · intro c t'
          simp only [upd_apply]
          split
          · rename_i e; subst e; intro e; cases e; exact i1 t
          · exact i4 c t'
        · intro t' c
          simp only [upd_apply]
          split
          · rename_i e; subst e; intro e; cases e; simp
          · intro e
            have := i5 t' c e
            rw [if_neg]; exact this
            rintro rfl; rw [hu2] at this; cases this
        · intro t' t''
          simp only [upd_apply]
          split
          · intro e; cases e
          · exact i6 t' t''
        · intro a c e
          have := i7 a c e
          simp only [upd_apply]
          rw [if_neg]; exact this
          rintro rfl; rw [hu2] at this; cases this
  | enterSlow t =>
    simp only [step] at h
    split at h
    · cases h
    · rename_i hu
      have hu1 : s.h t = .idle := by simp only [not_or, Decidable.not_not] at hu; exact hu.1
      have hu2 : s.pc (s.cur t) = .user := by simp only [not_or, Decidable.not_not] at hu; exact hu.2
      split at h
      · cases h
        have hn : 0 < s.cnt t := hg _ (List.mem_singleton_self _)
        refine ⟨i1, ?_, i3, ?_, ?_, i6, ?_, i8⟩
        · intro c
          simp only [upd_apply]
          split
          · rename_i e; subst e; intro _; simp [i1, hn]
          · exact i2 c
        · intro c t'
          simp only [upd_apply]
          split
          · intro e; cases e
          · exact i4 c t'
        · intro t' c e
          have := i5 t' c e
          simp only [upd_apply]
          rw [if_neg]; exact this
          rintro rfl; rw [hu2] at this; cases this
        · intro a c e
          have := i7 a c e
          simp only [upd_apply]
          rw [if_neg]; exact this
          rintro rfl; rw [hu2] at this; cases this
      · cases h
        have hn : 0 < s.cnt t := hg (.enter t (s.cnt t)) (by simp)
        refine ⟨i1, ?_, i3, ?_, ?_, i6, ?_, ?_⟩
        · intro c
          simp only [upd_apply]
          split
          · rename_i e; subst e; intro _; simp [i1, hn]
          · exact i2 c
        · intro c t'
          simp only [upd_apply]
          split
          · intro e; cases e
          · exact i4 c t'
        · intro t' c e
          have := i5 t' c e
          simp only [upd_apply]
          rw [if_neg]; exact this
          rintro rfl; rw [hu2] at this; cases this
        · intro a c
          simp only [upd_apply]
          split
          · rename_i e; subst e; intro e; cases e; simp
          · intro e
            have := i7 a c e
            rw [if_neg]; exact this
            rintro rfl; rw [hu2] at this; cases this
        · intro a t'
          simp only [upd_apply]
          split
          · intro e; cases e
          · exact i8 a t'
  | retry t =>
    simp only [step] at h
    split at h
    · cases h
    · rename_i hu
      split at h
      · rename_i a hp
        split at h
        · rename_i ho
          cases h
          have hx := i2 (s.cur t) (by simp [hp])
          refine ⟨i1, ?_, i3, ?_, ?_, i6, ?_, ?_⟩
          · intro c
            simp only [upd_apply]
            split
            · rename_i e; subst e; intro _; exact hx
            · exact i2 c
          · intro c t'
            simp only [upd_apply]
            split
            · intro e; cases e
            · exact i4 c t'
          · intro t' c e
            have := i5 t' c e
            simp only [upd_apply]
            rw [if_neg]; exact this
            rintro rfl; rw [hp] at this; cases this
          · intro a' c
            simp only [upd_apply]
            split
            · rename_i e; subst e; intro e; cases e; simp
            · intro e
              have := i7 a' c e
              rw [if_neg]; exact this
              rintro rfl; rw [hp] at this; cases this
          · intro a' t'
            simp only [upd_apply]
            split
            · intro e; cases e
            · exact i8 a' t'
        · cases h
      · cases h
  | leave t =>
    simp only [step] at h
    split at h
    · cases h
    · rename_i hu
      split at h
      · rename_i t' hp
        cases h
        refine ⟨i1, ?_, i3, ?_, ?_, ?_, ?_, i8⟩
        · intro c
          simp only [upd_apply]
          split
          · intro e; exact absurd rfl e
          · exact i2 c
        · intro c t''
          simp only [upd_apply]
          split
          · intro e; cases e
          · exact i4 c t''
        · intro t'' c
          simp only [upd_apply]
          split
          · intro e; cases e
          · rename_i hne
            intro e
            have := i5 t'' c e
            rw [if_neg]; exact this
            rintro rfl; rw [hp] at this; cases this; exact hne rfl
        · intro t'' t3
          simp only [upd_apply]
          split
          · intro e; cases e
          · exact i6 t'' t3
        · intro a c e
          have := i7 a c e
          simp only [upd_apply]
          rw [if_neg]; exact this
          rintro rfl; rw [hp] at this; cases this
      · rename_i a hp
        cases h
        refine ⟨i1, ?_, i3, ?_, ?_, i6, ?_, ?_⟩
        · intro c
          simp only [upd_apply]
          split
          · intro e; exact absurd rfl e
          · exact i2 c
        · intro c t''
          simp only [upd_apply]
          split
          · intro e; cases e
          · exact i4 c t''
        · intro t'' c e
          have := i5 t'' c e
          simp only [upd_apply]
          rw [if_neg]; exact this
          rintro rfl; rw [hp] at this; cases this
        · intro a' c
          simp only [upd_apply]
          split
          · intro e; cases e
          · rename_i hne
            intro e
            have := i7 a' c e
            rw [if_neg]; exact this
            rintro rfl; rw [hp] at this; cases this; exact hne rfl
        · intro a' t'
          simp only [upd_apply]
          split
          · intro e; cases e
          · exact i8 a' t'
      · cases h
  | guard t =>
    simp only [step] at h
    split at h
    · cases h
    · rename_i hu
      cases h
      simp only [not_or, Decidable.not_not] at hu
      refine ⟨i1, ?_, ?_, i4, i5, i6, i7, i8⟩
      · intro c hc
        have := i2 c hc
        refine ⟨this.1, ?_⟩
        simp only [upd_apply]; split <;> omega
      · intro t' ht
        simp only [upd_apply]
        split
        · rename_i e; subst e; exact absurd hu.1 ht
        · exact i3 t' ht
  | unguard t =>
    simp only [step] at h
    split at h
    · cases h
    · rename_i hu
      cases h
      simp only [not_or, Decidable.not_not] at hu
      refine ⟨i1, ?_, ?_, i4, i5, i6, i7, i8⟩
      · intro c hc
        have := i2 c hc
        refine ⟨this.1, ?_⟩
        simp only [upd_apply]
        split
        · rename_i e
          have e2 := this.1
          rw [e] at e2
          rw [← e2, hu.2.1] at hc; exact absurd rfl hc
        · exact this.2
      · intro t' ht
        simp only [upd_apply]
        split
        · rename_i e; subst e; exact absurd hu.1 ht
        · exact i3 t' ht
  | yield t c =>
    simp only [step] at h
    split at h
    · cases h
    · rename_i hu
      cases h
      simp only [not_or, Decidable.not_not] at hu
      refine ⟨?_, ?_, i3, i4, i5, i6, i7, i8⟩
      · intro t'
        simp only [upd_apply]
        split
        · rename_i e; subst e; exact hu.2.2.2
        · exact i1 t'
      · intro c' hc
        have := i2 c' hc
        refine ⟨?_, this.2⟩
        simp only [upd_apply]
        split
        · rename_i e; rw [e] at this; omega
        · exact this.1
  | signal t =>
    simp only [step] at h
    split at h
    · cases h
    · rename_i hu
      split at h
      · cases h; exact ⟨i1, i2, i3, i4, i5, i6, i7, i8⟩
      · rename_i hn
        cases h
        simp only [Decidable.not_not] at hu hn
        refine ⟨i1, i2, ?_, i4, i5, ?_, i7, ?_⟩
        · intro t' ht
          simp only [upd_apply] at ht
          split at ht
          · rename_i e; subst e; exact hn
          · exact i3 t' ht
        · intro t' t'' e
          have := i6 t' t'' e
          refine ⟨this.1, ?_⟩
          simp only [upd_apply]
          rw [if_neg]; exact this.2
          rintro rfl; rw [hu] at this; cases this.2
        · intro a t' e
          have := i8 a t' e
          refine ⟨this.1, ?_⟩
          simp only [upd_apply]
          rw [if_neg]; exact this.2
          rintro rfl; rw [hu] at this; cases this.2
  | hFast t =>
    simp only [step] at h
    split at h
    · cases h
    · rename_i hu
      have hu1 : s.h t = .chosen := by simp only [not_or, Decidable.not_not] at hu; exact hu.1
      split at h
      · cases h; exact ⟨i1, i2, i3, i4, i5, i6, i7, i8⟩
      · cases h
        refine ⟨i1, i2, ?_, i4, ?_, ?_, i7, ?_⟩
        · intro t' ht
          simp only [upd_apply] at ht
          split at ht
          · rename_i e; subst e; exact i3 t' (by simp [hu1])
          · exact i3 t' ht
        · intro t' c
          simp only [upd_apply]
          split
          · intro e; cases e
          · exact i5 t' c
        · intro t' t''
          simp only [upd_apply]
          split
          · rename_i e; subst e; intro e; cases e; simp
          · exact i6 t' t''
        · intro a t' e
          have := i8 a t' e
          refine ⟨this.1, ?_⟩
          simp only [upd_apply]
          rw [if_neg]; exact this.2
          rintro rfl; rw [hu1] at this; cases this.2
  | hSlow t =>
    simp only [step] at h
    split at h
    · cases h
    · rename_i hu
      have hu1 : s.h t = .chosen := by simp only [not_or, Decidable.not_not] at hu; exact hu.1
      split at h
      · cases h
        refine ⟨i1, i2, ?_, i4, i5, ?_, i7, ?_⟩
        · intro t' ht
          simp only [upd_apply] at ht
          split at ht
          · rename_i e; subst e; exact i3 t' (by simp [hu1])
          · exact i3 t' ht
        · intro t' t'' e
          have := i6 t' t'' e
          refine ⟨this.1, ?_⟩
          simp only [upd_apply]
          rw [if_neg]; exact this.2
          rintro rfl; rw [hu1] at this; cases this.2
        · intro a t' e
          have := i8 a t' e
          refine ⟨this.1, ?_⟩
          simp only [upd_apply]
          rw [if_neg]; exact this.2
          rintro rfl; rw [hu1] at this; cases this.2
      · cases h
        refine ⟨i1, i2, ?_, i4, i5, ?_, ?_, ?_⟩
        · intro t' ht
          simp only [upd_apply] at ht
          split at ht
          · rename_i e; subst e; exact i3 t' (by simp [hu1])
          · exact i3 t' ht
        · intro t' t'' e
          have := i6 t' t'' e
          refine ⟨this.1, ?_⟩
          simp only [upd_apply]
          rw [if_neg]; exact this.2
          rintro rfl; rw [hu1] at this; cases this.2
        · intro a c
          simp only [upd_apply]
          split
          · intro e; cases e
          · exact i7 a c
        · intro a t'
          simp only [upd_apply]
          split
          · rename_i e; subst e; intro e; cases e; simp
          · intro e
            have := i8 a t' e
            refine ⟨this.1, ?_⟩
            rw [if_neg]; exact this.2
            rintro rfl; rw [hu1] at this; cases this.2
  | hRetry t =>
    simp only [step] at h
    split at h
    · cases h
    · rename_i hu
      have hu1 : s.h t = .want := by simp only [not_or, Decidable.not_not] at hu; exact hu.1
      cases h
      refine ⟨i1, i2, ?_, i4, i5, ?_, ?_, ?_⟩
      · intro t' ht
        simp only [upd_apply] at ht
        split at ht
        · rename_i e; subst e; exact i3 t' (by simp [hu1])
        · exact i3 t' ht
      · intro t' t'' e
        have := i6 t' t'' e
        refine ⟨this.1, ?_⟩
        simp only [upd_apply]
        rw [if_neg]; exact this.2
        rintro rfl; rw [hu1] at this; cases this.2
      · intro a c
        simp only [upd_apply]
        split
        · intro e; cases e
        · exact i7 a c
      · intro a t'
        simp only [upd_apply]
        split
        · rename_i e; subst e; intro e; cases e; simp
        · intro e
          have := i8 a t' e
          refine ⟨this.1, ?_⟩
          rw [if_neg]; exact this.2
          rintro rfl; rw [hu1] at this; cases this.2
  | hDone t c =>
    simp only [step] at h
    have key : ∀ (_ : s.cnt t = 0), ∀ c', s.pc c' ≠ .user → upd s.cur t c (s.home c') = c' ∧ 0 < s.cnt (s.home c') := by
      intro h0 c' hc
      have := i2 c' hc
      refine ⟨?_, this.2⟩
      simp only [upd_apply]
      split
      · rename_i e; rw [e] at this; omega
      · exact this.1
    split at h
    · cases h
    · rename_i hh
      have hh : s.home c = t := by simpa using hh
      have k1 : ∀ t', s.home (upd s.cur t c t') = t' := by
        intro t'
        simp only [upd_apply]
        split
        · rename_i e; rw [e]; exact hh
        · exact i1 t'
      split at h
      · rename_i hu1
        cases h
        refine ⟨k1, key (i3 t (by simp [hu1])), ?_, i4, ?_, ?_, i7, ?_⟩
        · intro t' ht
          simp only [upd_apply] at ht
          split at ht
          · exact absurd rfl ht
          · exact i3 t' ht
        · intro t' c
          simp only [upd_apply]
          split
          · intro e; cases e
          · exact i5 t' c
        · intro t' t''
          simp only [upd_apply]
          split
          · intro e; cases e
          · exact i6 t' t''
        · intro a t' e
          have := i8 a t' e
          refine ⟨this.1, ?_⟩
          simp only [upd_apply]
          rw [if_neg]; exact this.2
          rintro rfl; rw [hu1] at this; cases this.2
      · rename_i hu1
        cases h
        refine ⟨k1, key (i3 t (by simp [hu1])), ?_, i4, i5, ?_, ?_, ?_⟩
        · intro t' ht
          simp only [upd_apply] at ht
          split at ht
          · exact absurd rfl ht
          · exact i3 t' ht
        · intro t' t'' e
          have := i6 t' t'' e
          refine ⟨this.1, ?_⟩
          simp only [upd_apply]
          rw [if_neg]; exact this.2
          rintro rfl; rw [hu1] at this; cases this.2
        · intro a c
          simp only [upd_apply]
          split
          · intro e; cases e
          · exact i7 a c
        · intro a t'
          simp only [upd_apply]
          split
          · intro e; cases e
          · rename_i hne
            intro e
            have := i8 a t' e
            refine ⟨this.1, ?_⟩
            rw [if_neg]; exact this.2
            rintro rfl; exact hne this.1.symm
      · rename_i hu1
        split at h
        · cases h
        · cases h
          refine ⟨k1, key (i3 t (by simp [hu1])), ?_, i4, i5, ?_, i7, ?_⟩
          · intro t' ht
            simp only [upd_apply] at ht
            split at ht
            · exact absurd rfl ht
            · exact i3 t' ht
          · intro t' t'' e
            have := i6 t' t'' e
            refine ⟨this.1, ?_⟩
            simp only [upd_apply]
            rw [if_neg]; exact this.2
            rintro rfl; rw [hu1] at this; cases this.2
          · intro a t' e
            have := i8 a t' e
            refine ⟨this.1, ?_⟩
            simp only [upd_apply]
            rw [if_neg]; exact this.2
            rintro rfl; rw [hu1] at this; cases this.2
      · cases h
  | move c t =>
    simp only [step] at h
    split at h
    · cases h
    · rename_i hu
      cases h
      simp only [not_or, Decidable.not_not] at hu
      have hcu : s.pc c = .user := by
        cases hp : s.pc c with
        | user => rfl
        | _ => exact absurd (i2 c (by simp [hp])).1 hu.2.2
      refine ⟨?_, ?_, i3, ?_, i5, i6, i7, i8⟩
      · intro t'
        simp only [upd_apply]
        split
        · rename_i e
          exfalso; apply hu.2.2; rw [← e, i1 t']
        · exact i1 t'
      · intro c' hc
        simp only [upd_apply]
        split
        · rename_i e; subst e; exact absurd hcu hc
        · exact i2 c' hc
      · intro c' t' hc
        simp only [upd_apply]
        split
        · rename_i e; subst e; rw [hcu] at hc; cases hc
        · exact i4 c' t' hc

/-- Proof device, for all programs: locks and caches are held by who is inside. (Concerns co_vos_gcc_x86_64.cpp:142-166, co_env.cpp:217-228.) -/
structure Held (ar : Nat → Nat) (s : State) : Prop where
  home : ∀ t, s.home (s.cur t) = t
  slow : ∀ c a, s.pc c = .slow a ↔ s.own a = some (.co c)
  hslow : ∀ t, s.h t = .slow → s.own (ar t) = some (.handler t)
  fast : ∀ c t, s.pc c = .fast t ↔ s.cache t = some (.co c)
  hfast : ∀ t, s.h t = .fast → s.cache t = some (.handler t)

theorem held_init (ar home cur : Nat → Nat) (hh : ∀ t, home (cur t) = t) : Held ar (State.init home cur) := by
  constructor <;> simp [State.init, hh]

/-- Somebody enters: the new holder is the one inside. -/
theorem acq {K : Nat → Pc} (hK : ∀ a b, K a = K b → a = b) {pc : Nat → Pc} {own : Nat → Option Who} (hi : ∀ c a, pc c = K a ↔ own a = some (.co c))
    {c0 a0 : Nat} (h1 : ∀ a, pc c0 ≠ K a) (h2 : own a0 = none) (c a : Nat) :
    upd pc c0 (K a0) c = K a ↔ upd own a0 (some (.co c0)) a = some (.co c) := by
  simp only [upd_apply]
  by_cases e1 : c = c0 <;> by_cases e2 : a = a0
  · subst e1 e2; simp
  · subst e1
    simp only [if_true, if_neg e2, ← hi c a]
    exact ⟨fun e => absurd (hK _ _ e).symm e2, fun e => absurd e (h1 a)⟩
  · subst e2
    simp only [if_neg e1, if_true, hi c a, h2]
    constructor
    · intro e; cases e
    · intro e; cases e; exact absurd rfl e1
  · simp only [if_neg e1, if_neg e2, hi c a]

/-- Somebody leaves: nobody is inside. -/
theorem rel {K : Nat → Pc} (hK : ∀ a b, K a = K b → a = b) (hu : ∀ a, K a ≠ .user) {pc : Nat → Pc} {own : Nat → Option Who}
    (hi : ∀ c a, pc c = K a ↔ own a = some (.co c)) {c0 a0 : Nat} (h1 : pc c0 = K a0) (c a : Nat) :
    upd pc c0 .user c = K a ↔ upd own a0 none a = some (.co c) := by
  have h2 := (hi _ _).1 h1
  simp only [upd_apply]
  by_cases e1 : c = c0 <;> by_cases e2 : a = a0
  · simp only [if_pos e1, if_pos e2]
    exact ⟨fun e => absurd e.symm (hu a), fun e => by cases e⟩
  · simp only [if_pos e1, if_neg e2]
    refine ⟨fun e => absurd e.symm (hu a), fun e => ?_⟩
    rw [e1, ← hi, h1] at e
    exact absurd (hK _ _ e).symm e2
  · simp only [if_neg e1, if_pos e2]
    refine ⟨fun e => ?_, fun e => by cases e⟩
    rw [hi, e2, h2] at e
    cases e; exact absurd rfl e1
  · simp only [if_neg e1, if_neg e2, hi c a]

theorem held_step (ha : Bool) (ar : Nat → Nat) (s : State) (a : Act) (s' : State) (es : List Ev) (hI : Held ar s) (h : step ha ar s a = some (s', es)) :
    Held ar s' := by
  obtain ⟨i1, i2, i3, i4, i5⟩ := hI
  cases a with
  | enterFast t =>
    simp only [step] at h
    split at h
    · cases h
    · rename_i hu
      simp only [not_or, Decidable.not_not] at hu
      split at h
      · cases h; exact ⟨i1, i2, i3, i4, i5⟩
      · rename_i hc
        cases h
        refine ⟨i1, ?_, i3, ?_, ?_⟩
        · intro c a
          simp only [upd_apply]
          rw [← i2 c a]
          split
          · rename_i e; subst e; simp [hu.2]
          · rfl
        · exact acq (fun a b e => by cases e; rfl) i4 (fun a => by simp [hu.2]) hc
        · intro t' ht
          have := i5 t' ht
          simp only [upd_apply]
          rw [if_neg]; exact this
          rintro rfl; rw [hc] at this; cases this
  | enterSlow t =>
    simp only [step] at h
    split at h
    · cases h
    · rename_i hu
      simp only [not_or, Decidable.not_not] at hu
      split at h
      · cases h
        refine ⟨i1, ?_, i3, ?_, i5⟩
        · intro c a
          simp only [upd_apply]
          rw [← i2 c a]
          split
          · rename_i e; subst e; simp [hu.2]
          · rfl
        · intro c t'
          simp only [upd_apply]
          rw [← i4 c t']
          split
          · rename_i e; subst e; simp [hu.2]
          · rfl
      · rename_i hc
        cases h
        refine ⟨i1, ?_, ?_, ?_, i5⟩
        · exact acq (fun a b e => by cases e; rfl) i2 (fun a => by simp [hu.2]) hc
        · intro t' ht
          have := i3 t' ht
          simp only [upd_apply]
          rw [if_neg]; exact this
          intro e; rw [e, hc] at this; cases this
        · intro c t'
          simp only [upd_apply]
          rw [← i4 c t']
          split
          · rename_i e; subst e; simp [hu.2]
          · rfl
  | retry t =>
    simp only [step] at h
    split at h
    · cases h
    · split at h
      · rename_i a hp
        split at h
        · rename_i hc
          cases h
          refine ⟨i1, ?_, ?_, ?_, i5⟩
          · exact acq (fun a b e => by cases e; rfl) i2 (fun a => by simp [hp]) hc
          · intro t' ht
            have := i3 t' ht
            simp only [upd_apply]
            rw [if_neg]; exact this
            intro e; rw [e, hc] at this; cases this
          · intro c t'
            simp only [upd_apply]
            rw [← i4 c t']
            split
            · rename_i e; subst e; simp [hp]
            · rfl
        · cases h
      · cases h
  | leave t =>
    simp only [step] at h
    split at h
    · cases h
    · split at h
      · rename_i t' hp
        cases h
        have hq := (i4 _ _).1 hp
        refine ⟨i1, ?_, i3, ?_, ?_⟩
        · intro c a
          simp only [upd_apply]
          rw [← i2 c a]
          split
          · rename_i e; subst e; simp [hp]
          · rfl
        · exact rel (fun a b e => by cases e; rfl) (fun a => by simp) i4 hp
        · intro t2 ht
          have := i5 t2 ht
          simp only [upd_apply]
          rw [if_neg]; exact this
          rintro rfl; rw [hq] at this; cases this
      · rename_i a hp
        cases h
        have hq := (i2 _ _).1 hp
        refine ⟨i1, ?_, ?_, ?_, i5⟩
        · exact rel (fun a b e => by cases e; rfl) (fun a => by simp) i2 hp
        · intro t2 ht
          have := i3 t2 ht
          simp only [upd_apply]
          rw [if_neg]; exact this
          intro e; rw [e, hq] at this; cases this
        · intro c t'
          simp only [upd_apply]
          rw [← i4 c t']
          split
          · rename_i e; subst e; simp [hp]
          · rfl
      · cases h
  | guard t => simp only [step] at h; split at h <;> cases h; exact ⟨i1, i2, i3, i4, i5⟩
  | unguard t => simp only [step] at h; split at h <;> cases h; exact ⟨i1, i2, i3, i4, i5⟩
  | yield t c =>
    simp only [step] at h
    split at h
    · cases h
    · rename_i hu
      cases h
      simp only [not_or, Decidable.not_not] at hu
      refine ⟨?_, i2, i3, i4, i5⟩
      intro t'
      simp only [upd_apply]
      split
      · rename_i e; subst e; exact hu.2.2.2
      · exact i1 t'
  | signal t =>
    simp only [step] at h
    split at h
    · cases h
    · split at h
      · cases h; exact ⟨i1, i2, i3, i4, i5⟩
      · cases h
        refine ⟨i1, i2, ?_, i4, ?_⟩
        · intro t' ht
          simp only [upd_apply] at ht
          split at ht
          · cases ht
          · exact i3 t' ht
        · intro t' ht
          simp only [upd_apply] at ht
          split at ht
          · cases ht
          · exact i5 t' ht
  | hFast t =>
    simp only [step] at h
    split at h
    · cases h
    · split at h
      · cases h; exact ⟨i1, i2, i3, i4, i5⟩
      · rename_i hc
        cases h
        refine ⟨i1, i2, ?_, ?_, ?_⟩
        · intro t' ht
          simp only [upd_apply] at ht
          split at ht
          · cases ht
          · exact i3 t' ht
        · intro c t'
          have := i4 c t'
          simp only [upd_apply]
          split <;> simp_all
        · intro t' ht
          simp only [upd_apply] at ht ⊢
          split at ht
          · rename_i e; subst e; simp
          · rename_i e; rw [if_neg e]; exact i5 t' ht
  | hSlow t =>
    simp only [step] at h
    split at h
    · cases h
    · split at h
      · cases h
        refine ⟨i1, i2, ?_, i4, ?_⟩
        · intro t' ht
          simp only [upd_apply] at ht
          split at ht
          · cases ht
          · exact i3 t' ht
        · intro t' ht
          simp only [upd_apply] at ht
          split at ht
          · cases ht
          · exact i5 t' ht
      · rename_i hc
        cases h
        refine ⟨i1, ?_, ?_, i4, ?_⟩
        · intro c a
          have := i2 c a
          simp only [upd_apply]
          split <;> simp_all
        · intro t' ht
          simp only [upd_apply] at ht ⊢
          split at ht
          · rename_i e; subst e; simp
          · have := i3 t' ht
            rw [if_neg]; exact this
            intro e; rw [e, hc] at this; cases this
        · intro t' ht
          simp only [upd_apply] at ht
          split at ht
          · cases ht
          · exact i5 t' ht
  | hRetry t =>
    simp only [step] at h
    split at h
    · cases h
    · rename_i hu
      simp only [not_or, Decidable.not_not] at hu
      have hc := hu.2
      cases h
      refine ⟨i1, ?_, ?_, i4, ?_⟩
      · intro c a
        have := i2 c a
        simp only [upd_apply]
        split <;> simp_all
      · intro t' ht
        simp only [upd_apply] at ht ⊢
        split at ht
        · rename_i e; subst e; simp
        · have := i3 t' ht
          rw [if_neg]; exact this
          intro e; rw [e, hc] at this; cases this
      · intro t' ht
        simp only [upd_apply] at ht
        split at ht
        · cases ht
        · exact i5 t' ht
  | hDone t c =>
    simp only [step] at h
    split at h
    · cases h
    · rename_i hh
      have hh : s.home c = t := by simpa using hh
      have k1 : ∀ t', s.home (upd s.cur t c t') = t' := by
        intro t'
        simp only [upd_apply]
        split
        · rename_i e; rw [e]; exact hh
        · exact i1 t'
      split at h
      · rename_i hu1
        cases h
        have hq := i5 t hu1
        refine ⟨k1, i2, ?_, ?_, ?_⟩
        · intro t' ht
          simp only [upd_apply] at ht
          split at ht
          · cases ht
          · exact i3 t' ht
        · intro c' t'
          have := i4 c' t'
          simp only [upd_apply]
          split <;> simp_all
        · intro t' ht
          simp only [upd_apply] at ht ⊢
          split at ht
          · cases ht
          · rename_i e; rw [if_neg e]; exact i5 t' ht
      · rename_i hu1
        cases h
        have hq := i3 t hu1
        refine ⟨k1, ?_, ?_, i4, ?_⟩
        · intro c' a
          have := i2 c' a
          simp only [upd_apply]
          split <;> simp_all
        · intro t' ht
          simp only [upd_apply] at ht ⊢
          split at ht
          · cases ht
          · rename_i e
            have := i3 t' ht
            rw [if_neg]; exact this
            intro e'; rw [e', hq] at this; cases this; exact e rfl
        · intro t' ht
          simp only [upd_apply] at ht
          split at ht
          · cases ht
          · exact i5 t' ht
      · split at h
        · cases h
        · cases h
          refine ⟨k1, i2, ?_, i4, ?_⟩
          · intro t' ht
            simp only [upd_apply] at ht
            split at ht
            · cases ht
            · exact i3 t' ht
          · intro t' ht
            simp only [upd_apply] at ht
            split at ht
            · cases ht
            · exact i5 t' ht
      · cases h
  | move c t =>
    simp only [step] at h
    split at h
    · cases h
    · rename_i hu
      cases h
      simp only [not_or, Decidable.not_not] at hu
      refine ⟨?_, i2, i3, i4, i5⟩
      intro t'
      simp only [upd_apply]
      split
      · rename_i e
        exfalso; apply hu.2.2; rw [← e, i1 t']
      · exact i1 t'

/-- States a program can get into, for any number of threads and coroutines. (Concerns co_vos_gcc_x86_64.cpp:142-166, co_env.cpp:217-228.) -/
def Reach (ha : Bool) (ar : Nat → Nat) (s : State) : Prop :=
  ∃ home cur as es, (∀ t, home (cur t) = t) ∧ runs (step ha ar) (State.init home cur) as = some (s, es)

theorem reach_held {ha : Bool} {ar : Nat → Nat} {s : State} (h : Reach ha ar s) : Held ar s := by
  obtain ⟨home, cur, as, es, hh, h⟩ := h
  exact runs_inv (Held ar) (fun s a s' es => held_step ha ar s a s' es) as _ _ _ (held_init ar home cur hh) h

theorem not_broken {ha : Bool} {ar : Nat → Nat} {s s' : State} {a : Act} {es : List Ev} (hI : Inv ar s) (h : step ha ar s a = some (s', es)) (t : Nat) :
    Ev.broken t ∉ es := by
  obtain ⟨i1, i2, i3, i4, i5, i6, i7, i8⟩ := hI
  cases a with
  | enterFast u =>
    simp only [step] at h
    split at h
    · cases h
    · rename_i hu
      simp only [not_or, Decidable.not_not] at hu
      split at h
      · rename_i w hw
        exfalso
        cases w with
        | co c =>
          have h1 := i5 u c hw
          have h2 := (i2 c (by simp [h1])).1
          rw [i4 c u h1] at h2
          rw [h2, h1] at hu; cases hu.2
        | handler t' => have := (i6 u t' hw).2; rw [hu.1] at this; cases this
      · cases h; simp
  | hFast u =>
    simp only [step] at h
    split at h
    · cases h
    · rename_i hu
      simp only [not_or, Decidable.not_not] at hu
      split at h
      · rename_i w hw
        exfalso
        cases w with
        | co c =>
          have h1 := i5 u c hw
          have h2 := (i2 c (by simp [h1])).2
          rw [i4 c u h1] at h2
          have := i3 u (by simp [hu.1]); omega
        | handler t' => have := (i6 u t' hw).2; rw [hu.1] at this; cases this
      · cases h; simp
  | _ =>
    simp only [step] at h
    repeat' split at h
    all_goals cases h
    all_goals simp

/-- **C118, programs that guard the allocator.** If every coroutine sets a preemption guard (`CoPreemptGuard`) around its calls of the allocator, then for
all threads, all sharing of arenas, all schedules, signals and migrations: the cache of a thread is never entered twice; and whoever waits for an arena waits for
one that is free by now, or that is held on another thread which can leave it at once. (Partial: the guard is not set by the code, nor by programs,
around `malloc` and `free`; without it the claim is false.) -/
theorem C118_guarded_partial (ha : Bool) (ar home cur : Nat → Nat) (hh : ∀ t, home (cur t) = t) (as : List Act) (s : State) (es : List Ev)
    (h : runs (step ha ar) (State.init home cur) as = some (s, es)) (hg : ∀ e ∈ es, guarded e) :
    (∀ t, Ev.broken t ∉ es) ∧
    (∀ t a, s.h t = .idle ∧ s.pc (s.cur t) = .want a → (step ha ar s (.retry t)).isSome ∨
      ∃ t', t' ≠ t ∧ ((step ha ar s (.leave t')).isSome ∨ (step ha ar s (.hDone t' (s.cur t'))).isSome)) ∧
    (∀ t, s.h t = .want → (step ha ar s (.hRetry t)).isSome ∨
      ∃ t', t' ≠ t ∧ ((step ha ar s (.leave t')).isSome ∨ (step ha ar s (.hDone t' (s.cur t'))).isSome)) := by
  have main : ∀ as s s' es, Inv ar s → runs (step ha ar) s as = some (s', es) → (∀ e ∈ es, guarded e) → Inv ar s' ∧ ∀ t, Ev.broken t ∉ es := by
    intro as
    induction as with
    | nil => intro s s' es hI hr _; simp only [runs, Option.some.injEq, Prod.mk.injEq] at hr; obtain ⟨rfl, rfl⟩ := hr; exact ⟨hI, by simp⟩
    | cons a as ih =>
      intro s s' es hI hr hg
      obtain ⟨s1, e1, e2, h1, h2, rfl⟩ := runs_cons hr
      obtain ⟨k1, k2⟩ := ih s1 s' e2 (inv_step ha ar s a s1 e1 hI h1 (fun e he => hg e (List.mem_append_left _ he))) h2
        (fun e he => hg e (List.mem_append_right _ he))
      refine ⟨k1, fun t ht => ?_⟩
      rcases List.mem_append.1 ht with ht | ht
      · exact not_broken hI h1 t ht
      · exact k2 t ht
  obtain ⟨hI, hb⟩ := main as _ s es (inv_init ar home cur hh) h hg
  have free : ∀ a w, s.own a = some w → ∀ t, (∀ c, w = .co c → c ≠ s.cur t) → (∀ u, w = .handler u → u ≠ t) →
      ∃ t', t' ≠ t ∧ ((step ha ar s (.leave t')).isSome ∨ (step ha ar s (.hDone t' (s.cur t'))).isSome) := by
    intro a w hw t n1 n2
    cases w with
    | co c =>
      have h1 := hI.oc a c hw
      obtain ⟨h2, h3⟩ := hI.idle c (by simp [h1])
      refine ⟨s.home c, ?_, .inl ?_⟩
      · rintro rfl; exact n1 c rfl h2.symm
      · have h4 : s.h (s.home c) = .idle := by
          cases hx : s.h (s.home c) with
          | idle => rfl
          | _ => have := hI.hc (s.home c) (by simp [hx]); omega
        simp [step, h4, h2, h1]
    | handler u =>
      have h1 := (hI.oh a u hw).2
      exact ⟨u, n2 u rfl, .inr (by simp [step, h1, hI.home u])⟩
  refine ⟨hb, ?_, ?_⟩
  · rintro t a ⟨h1, h2⟩
    cases ho : s.own a with
    | none => left; simp [step, h1, h2, ho]
    | some w =>
      right
      refine free a w ho t ?_ ?_
      · rintro c rfl rfl; have := hI.oc a _ ho; rw [h2] at this; cases this
      · rintro u rfl rfl; have := (hI.oh a _ ho).2; rw [h1] at this; cases this
  · intro t h1
    cases ho : s.own (ar t) with
    | none => left; simp [step, h1, ho]
    | some w =>
      right
      refine free (ar t) w ho t ?_ ?_
      · rintro c rfl rfl
        have h3 := hI.oc _ _ ho
        have h4 := (hI.idle (s.cur t) (by simp [h3])).2
        rw [hI.home t] at h4
        have := hI.hc t (by simp [h1]); omega
      · rintro u rfl rfl; have := (hI.oh _ _ ho).2; rw [h1] at this; cases this

/-- Two threads with one arena. Coroutine 0 allocates under a guard, the signal during that has no effect; the handler of thread 1 waits for the arena and gets it. -/
example : ∃ s es, runs (step true (fun _ => 7)) (State.init (fun c => c % 2) id)
    [.guard 0, .enterSlow 0, .signal 0, .signal 1, .hSlow 1, .leave 0, .unguard 0, .hRetry 1, .hDone 1 3] = some (s, es) ∧
    es = [.enter 0 1, .gets 7 (.co 0), .left 0, .gets 7 (.handler 1), .switched 1 3] ∧ (∀ e ∈ es, guarded e) :=
  ⟨_, _, rfl, rfl, by intro e he; simp at he; rcases he with rfl | rfl | rfl | rfl | rfl <;> simp [guarded]⟩

/-- Whether an event is of thread `t` or of somebody who gets the lock of arena `a`. (Concerns co_vos_gcc_x86_64.cpp:142-166, co_env.cpp:217-228.) -/
def about (t a : Nat) : Ev → Bool
  | .enter u _ | .left u | .broken u | .switched u _ => u == t
  | .gets b _ => b == a

/-- The handler of `t` waits for the arena that the coroutine it interrupted holds. (Concerns co_vos_gcc_x86_64.cpp:142-166, co_env.cpp:217-228.) -/
structure Lost (ar : Nat → Nat) (t c : Nat) (s : State) : Prop where
  held : Held ar s
  cur : s.cur t = c
  want : s.h t = .want
  own : s.own (ar t) = some (.co c)

theorem lost_step {ha : Bool} {ar : Nat → Nat} {t c : Nat} {s s' : State} {a : Act} {es : List Ev} (hI : Lost ar t c s)
    (h : step ha ar s a = some (s', es)) : Lost ar t c s' ∧ (∀ e ∈ es, about t (ar t) e = false) ∧ ∀ c', s.home c' = t → s'.home c' = t := by
  obtain ⟨hH, hc, hw, ho⟩ := hI
  have hH' := held_step ha ar s a s' es hH h
  have hp := (hH.slow c (ar t)).2 ho
  cases a with
  | enterFast u =>
    have hut : u ≠ t := by rintro rfl; simp [step, hw] at h
    simp only [step] at h
    repeat' split at h
    all_goals cases h
    · exact ⟨⟨hH, hc, hw, ho⟩, by simp [about, hut], fun _ h => h⟩
    · exact ⟨⟨hH', hc, hw, ho⟩, by simp [about, hut], fun _ h => h⟩
  | enterSlow u =>
    have hut : u ≠ t := by rintro rfl; simp [step, hw] at h
    simp only [step] at h
    repeat' split at h
    all_goals cases h
    · exact ⟨⟨hH', hc, hw, ho⟩, by simp [about, hut], fun _ h => h⟩
    · rename_i hn
      have hne : ar u ≠ ar t := by intro e; rw [e, ho] at hn; cases hn
      exact ⟨⟨hH', hc, hw, by simp only [upd_apply]; rw [if_neg (Ne.symm hne)]; exact ho⟩, by simp [about, hut, hne], fun _ h => h⟩
  | retry u =>
    simp only [step] at h
    repeat' split at h
    all_goals cases h
    rename_i b _ hn
    have hne : b ≠ ar t := by intro e; rw [e, ho] at hn; cases hn
    exact ⟨⟨hH', hc, hw, by simp only [upd_apply]; rw [if_neg (Ne.symm hne)]; exact ho⟩, by simp [about, hne], fun _ h => h⟩
  | leave u =>
    have hut : u ≠ t := by rintro rfl; simp [step, hw] at h
    simp only [step] at h
    repeat' split at h
    all_goals cases h
    · exact ⟨⟨hH', hc, hw, ho⟩, by simp [about, hut], fun _ h => h⟩
    · rename_i b hb
      have hne : b ≠ ar t := by
        rintro rfl
        have := (hH.slow _ _).1 hb
        rw [ho] at this; cases this
        apply hut; rw [← hH.home u, hc.symm.trans rfl, hH.home t]
      exact ⟨⟨hH', hc, hw, by simp only [upd_apply]; rw [if_neg (Ne.symm hne)]; exact ho⟩, by simp [about, hut], fun _ h => h⟩
  | guard u => simp only [step] at h; split at h <;> cases h; exact ⟨⟨hH', hc, hw, ho⟩, by simp, fun _ h => h⟩
  | unguard u => simp only [step] at h; split at h <;> cases h; exact ⟨⟨hH', hc, hw, ho⟩, by simp, fun _ h => h⟩
  | yield u c' =>
    have hut : u ≠ t := by rintro rfl; simp [step, hw] at h
    simp only [step] at h
    split at h <;> cases h
    exact ⟨⟨hH', by simp only [upd_apply]; rw [if_neg (Ne.symm hut)]; exact hc, hw, ho⟩, by simp [about, hut], fun _ h => h⟩
  | signal u =>
    have hut : u ≠ t := by rintro rfl; simp [step, hw] at h
    simp only [step] at h
    repeat' split at h
    all_goals cases h
    · exact ⟨⟨hH, hc, hw, ho⟩, by simp, fun _ h => h⟩
    · exact ⟨⟨hH', hc, by simp only [upd_apply]; rw [if_neg (Ne.symm hut)]; exact hw, ho⟩, by simp, fun _ h => h⟩
  | hFast u =>
    have hut : u ≠ t := by rintro rfl; simp [step, hw] at h
    simp only [step] at h
    repeat' split at h
    all_goals cases h
    · exact ⟨⟨hH, hc, hw, ho⟩, by simp [about, hut], fun _ h => h⟩
    · exact ⟨⟨hH', hc, by simp only [upd_apply]; rw [if_neg (Ne.symm hut)]; exact hw, ho⟩, by simp, fun _ h => h⟩
  | hSlow u =>
    have hut : u ≠ t := by rintro rfl; simp [step, hw] at h
    simp only [step] at h
    repeat' split at h
    all_goals cases h
    · exact ⟨⟨hH', hc, by simp only [upd_apply]; rw [if_neg (Ne.symm hut)]; exact hw, ho⟩, by simp, fun _ h => h⟩
    · rename_i hn
      have hne : ar u ≠ ar t := by intro e; rw [e, ho] at hn; cases hn
      exact ⟨⟨hH', hc, by simp only [upd_apply]; rw [if_neg (Ne.symm hut)]; exact hw, by simp only [upd_apply]; rw [if_neg (Ne.symm hne)]; exact ho⟩,
        by simp [about, hne], fun _ h => h⟩
  | hRetry u =>
    simp only [step] at h
    split at h
    · cases h
    · rename_i hu
      simp only [not_or, Decidable.not_not] at hu
      have hne : ar u ≠ ar t := by intro e; rw [e, ho] at hu; cases hu.2
      have hut : u ≠ t := by rintro rfl; exact hne rfl
      cases h
      exact ⟨⟨hH', hc, by simp only [upd_apply]; rw [if_neg (Ne.symm hut)]; exact hw, by simp only [upd_apply]; rw [if_neg (Ne.symm hne)]; exact ho⟩,
        by simp [about, hne], fun _ h => h⟩
  | hDone u c' =>
    have hut : u ≠ t := by rintro rfl; simp [step, hw] at h
    simp only [step] at h
    repeat' split at h
    all_goals cases h
    · exact ⟨⟨hH', by simp only [upd_apply]; rw [if_neg (Ne.symm hut)]; exact hc, by simp only [upd_apply]; rw [if_neg (Ne.symm hut)]; exact hw, ho⟩,
        by simp [about, hut], fun _ h => h⟩
    · rename_i hs
      have hne : ar u ≠ ar t := by intro e; have := hH.hslow u hs; rw [e, ho] at this; cases this
      exact ⟨⟨hH', by simp only [upd_apply]; rw [if_neg (Ne.symm hut)]; exact hc, by simp only [upd_apply]; rw [if_neg (Ne.symm hut)]; exact hw,
        by simp only [upd_apply]; rw [if_neg (Ne.symm hne)]; exact ho⟩, by simp [about, hut], fun _ h => h⟩
    · exact ⟨⟨hH', by simp only [upd_apply]; rw [if_neg (Ne.symm hut)]; exact hc, by simp only [upd_apply]; rw [if_neg (Ne.symm hut)]; exact hw, ho⟩,
        by simp [about, hut], fun _ h => h⟩
  | move c' u =>
    have hm : s.home c' ≠ t := by rintro rfl; simp [step, hw] at h
    simp only [step] at h
    split at h <;> cases h
    refine ⟨⟨hH', hc, hw, ho⟩, by simp, fun c'' h => ?_⟩
    simp only [upd_apply]
    split
    · rename_i e; subst e; exact absurd h hm
    · exact h

/-- **C118 is false of the code: a thread is lost.** In every reachable state in which the coroutine that runs on `t` holds the lock of its arena,
outside a guard: if the switch signal arrives now and the handler's own allocation needs the arena, then for all that happens afterwards the thread
does nothing any more, nobody gets the lock of this arena again, and none of the coroutines of the thread is moved to another one. -/
theorem C118_thread_lost (ar : Nat → Nat) (s : State) (h : Reach true ar s) (t : Nat) (h1 : s.h t = .idle) (h2 : s.cnt t = 0)
    (h3 : s.pc (s.cur t) = .slow (ar t)) : ∃ s1, runs (step true ar) s [.signal t, .hSlow t] = some (s1, []) ∧
      ∀ as s2 es, runs (step true ar) s1 as = some (s2, es) → (∀ e ∈ es, about t (ar t) e = false) ∧ ∀ c, s.home c = t → s2.home c = t := by
  have hH := reach_held h
  have ho := (hH.slow _ _).1 h3
  have e1 : step true ar s (.signal t) = some ({ s with h := upd s.h t .chosen }, []) := by simp [step, h1, h2]
  have e2 : step true ar { s with h := upd s.h t .chosen } (.hSlow t) = some ({ s with h := upd (upd s.h t .chosen) t .want }, []) := by
    simp [step, ho]
  refine ⟨_, by simp only [runs, e1, e2]; rfl, ?_⟩
  have hL : Lost ar t (s.cur t) { s with h := upd (upd s.h t .chosen) t .want } :=
    ⟨held_step true ar _ _ _ _ (held_step true ar _ _ _ _ hH e1) e2, rfl, by simp, ho⟩
  intro as s2 es hr
  have main : ∀ as s1 s2 es, Lost ar t (s.cur t) s1 → (∀ c, s.home c = t → s1.home c = t) → runs (step true ar) s1 as = some (s2, es) →
      (∀ e ∈ es, about t (ar t) e = false) ∧ ∀ c, s.home c = t → s2.home c = t := by
    intro as
    induction as with
    | nil => intro s1 s2 es _ hm hr; simp only [runs, Option.some.injEq, Prod.mk.injEq] at hr; obtain ⟨rfl, rfl⟩ := hr; exact ⟨by simp, hm⟩
    | cons a as ih =>
      intro s1 s2 es hL hm hr
      obtain ⟨s3, ea, eb, k1, k2, rfl⟩ := runs_cons hr
      obtain ⟨l1, l2, l3⟩ := lost_step hL k1
      obtain ⟨m1, m2⟩ := ih s3 s2 eb l1 (fun c hc => l3 c (hm c hc)) k2
      exact ⟨fun e he => (List.mem_append.1 he).elim (l2 e) (m1 e), m2⟩
  exact main as _ s2 es hL (fun _ h => h) hr

/-- Such a state: coroutine 0 calls `malloc`. -/
example : ∃ s es, runs (step true id) (State.init (fun c => c % 2) id) [.enterSlow 0] = some (s, es) ∧
    s.h 0 = .idle ∧ s.cnt 0 = 0 ∧ s.pc (s.cur 0) = .slow 0 := ⟨_, _, rfl, rfl, rfl, rfl⟩

/-- **C118 is false of the code: the cache is entered twice.** Likewise, when the coroutine is in the middle of a change to the cache of the thread and the handler is served from it. -/
theorem C118_cache_broken (ar : Nat → Nat) (s : State) (h : Reach true ar s) (t : Nat) (h1 : s.h t = .idle) (h2 : s.cnt t = 0)
    (h3 : s.pc (s.cur t) = .fast t) : ∃ s1, runs (step true ar) s [.signal t, .hFast t] = some (s1, [.broken t]) := by
  have ho := ((reach_held h).fast _ _).1 h3
  exact ⟨{ s with h := upd s.h t .chosen }, by simp [runs, step, h1, h2, ho]⟩

/-- From the start, on any thread. -/
example : (runs (step true id) (State.init (fun c => c % 2) id) [.enterFast 1, .signal 1, .hFast 1]).map (·.2) = some [.enter 1 0, .broken 1] := rfl

/-- **C118: a handler without allocations would not be enough.** The coroutine that is switched to finds the cache in the middle of a change. -/
theorem C118_still_broken (ar : Nat → Nat) (s : State) (h : Reach false ar s) (t c : Nat) (h1 : s.h t = .idle) (h2 : s.cnt t = 0)
    (h3 : s.pc (s.cur t) = .fast t) (hc : s.home c = t) (hu : s.pc c = .user) :
    ∃ s1, runs (step false ar) s [.signal t, .hDone t c, .enterFast t] = some (s1, [.switched t c, .enter t 0, .broken t]) := by
  have ho := ((reach_held h).fast _ _).1 h3
  refine ⟨{ s with h := upd (upd s.h t .chosen) t .idle, cur := upd s.cur t c }, ?_⟩
  simp [runs, step, h1, h2, ho, hc, hu]

/-- From the start: coroutines 0 and 2 are on thread 0. -/
example : (runs (step false id) (State.init (fun c => c % 2) id) [.enterFast 0, .signal 0, .hDone 0 2, .enterFast 0]).map (·.2) =
    some [.enter 0 0, .switched 0 2, .enter 0 0, .broken 0] := rfl

end Verif.Alloc
