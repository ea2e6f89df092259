import Verif.Base.Prog
import Verif.Sched.Publish
import Mathlib.Tactic.ClearExcept

/-!
# C126: a new coroutine sees what was done before it was created, a timer's callback what was done before the timer was started

Threads, the list of coroutines of each scheduling thread with its lock (`all_normal_ctx__`, `mu_normal_ctx__`, co_env.h), the timer queue with its
lock (`timer_queue__`, `mu_timer_queue__`, co_manager.h), and ordinary memory accesses of the code in between. Agents are threads: a coroutine is
only ever resumed by the thread of the env it was added to (C56 shows that nothing is taken from an env).

Simplified: priorities, waiting and the end of coroutines are left out, so any coroutine in the list may be resumed at any time, and any timer in
the queue may fire at any time on any thread that is not busy: the executions of the library are among these. Other locks are left out; they can
only add order. A thread finishes what it does with a list before it does something else: that a preempted coroutine keeps the lock and another
one of its thread enters again (both are recursive mutexes) is left out here, it is in C107's model.
-/

namespace Verif.StartHb
open Verif.Hb Verif.Prog

/-- `mu_normal_ctx__` of env `e` (co_env.h:78); `mu_timer_queue__` (co_manager.h:47). -/
inductive Lk
  | list (e : Nat)
  | timers
  deriving DecidableEq, Repr

/-- What is accessed: the list of env `e`, to which `c` is added (co_env.cpp:89) or of which `c` is chosen (co_env.cpp:531-545); the timer
queue, into which `k` is put (co_manager.cpp:496) or of which `k` fires as coroutine `c` (co_manager.cpp:363-378); data `x` of the
program, by coroutine `c`, or by a thread outside coroutines. -/
inductive Loc (X : Type)
  | add (e c : Nat)
  | pick (e c : Nat)
  | start (k : Nat)
  | fire (k c : Nat)
  | own (c : Option Nat) (x : X)
  deriving DecidableEq, Repr

/-- The lock under which the library accesses it (co_env.cpp:88, 529; co_manager.cpp:351, 495). -/
def Loc.lock {X : Type} : Loc X → Option Lk
  | .add e _ => some (.list e)
  | .pick e _ => some (.list e)
  | .start _ => some .timers
  | .fire _ _ => some .timers
  | .own _ _ => none

/-- Where a thread is: in the program's code; in `move_ctx_to_here` (co_env.cpp:80-97) before, in and at the end of the section of 87-91, called by
the timer thread if `f`; in `choose_ctx_from_normal_list__` (co_env.cpp:527-548); in `insert_timer_to_queue__` (co_manager.cpp:493-498); in
`timer_routine__` (co_manager.cpp:349-385). -/
inductive Pc
  | run
  | addL (e c : Nat) (f : Bool)
  | addP (e c : Nat) (f : Bool)
  | addU (e c : Nat) (f : Bool)
  | pickL
  | pickP
  | pickU
  | startL (k : Nat)
  | startP (k : Nat)
  | startU
  | fireL
  | fireP
  | fireU
  deriving DecidableEq, Repr

/-- The threads: `all_normal_ctx__` and `curr_ctx__` of the envs (co_env.h), `timer_queue__` (co_manager.h:46). Ghost: `made`, `used`: identities of coroutines and started timers given out; `cb c`: the timer whose callback coroutine `c` runs. -/
structure St where
  lk : Lk → Option Nat
  pc : Nat → Pc
  q : Nat → List Nat
  cur : Nat → Option Nat
  timers : List Nat
  made : Nat → Bool
  used : Nat → Bool
  cb : Nat → Option Nat

/-- At first there are no coroutines and no timers. (Concerns co_env.cpp:58-548, co_manager.cpp:349-498.) -/
def St.init : St := ⟨fun _ => none, fun _ => .run, fun _ => [], fun _ => none, [], fun _ => false, fun _ => false, fun _ => none⟩

/-- Thread `t` creates coroutine `c` in env `e`; looks for the next coroutine; starts timer `k` (a timer that is started again gets a new
number); looks at the timer queue; accesses data; goes on in the library, where `pick`, `fire` and `keep` say what it finds in the lists:
the coroutine to resume; the timer that is due, the env and the coroutine for its callback, and whether it stays in the queue. (Concerns co_env.cpp:58-548, co_manager.cpp:349-498.) -/
inductive Act (X : Type)
  | create (t e c : Nat)
  | resched (t : Nat)
  | start (t k : Nat)
  | poll (t : Nat)
  | own (t : Nat) (write : Bool) (x : X)
  | go (t : Nat) (pick : Option Nat) (fire : Option (Nat × Nat × Nat)) (keep : Bool)

/-- Write one lock. (Concerns co_env.cpp:58-548, co_manager.cpp:349-498.) -/
def setL (f : Lk → Option Nat) (l : Lk) (v : Option Nat) : Lk → Option Nat := fun k => if k = l then v else f k

/-- One step of a thread; the lines are at each case. (Concerns co_env.cpp:58-548, co_manager.cpp:349-498.) -/
def step {X : Type} (s : St) : Act X → Option (St × Tr Lk (Loc X))
  -- co_manager.cpp:421-439, co_env.cpp:58-78
  | .create t e c => if s.pc t = .run ∧ s.made c = false then
      some ({ s with pc := upd s.pc t (.addL e c false), made := upd s.made c true }, []) else none
  -- co_env.cpp:216-228, 311-330
  | .resched t => if s.pc t = .run then some ({ s with pc := upd s.pc t .pickL }, []) else none
  -- co_timer.cpp:57-67
  | .start t k => if s.pc t = .run ∧ s.used k = false then
      some ({ s with pc := upd s.pc t (.startL k), used := upd s.used k true }, []) else none
  -- co_manager.cpp:349
  | .poll t => if s.pc t = .run then some ({ s with pc := upd s.pc t .fireL }, []) else none
  | .own t w x => if s.pc t = .run then some (s, [(t, if w then .wr (.own (s.cur t) x) else .rd (.own (s.cur t) x))]) else none
  | .go t pick fire keep =>
    match s.pc t with
    | .run => none
    -- co_env.cpp:88
    | .addL e c f => if s.lk (.list e) = none then
        some ({ s with lk := setL s.lk (.list e) (some t), pc := upd s.pc t (.addP e c f) }, [(t, .acq (.list e))]) else none
    -- co_env.cpp:89-90
    | .addP e c f => some ({ s with q := upd s.q e (s.q e ++ [c]), pc := upd s.pc t (.addU e c f) }, [(t, .wr (.add e c))])
    -- co_env.cpp:91
    | .addU e _ f => some ({ s with lk := setL s.lk (.list e) none, pc := upd s.pc t (if f then .fireU else .run) }, [(t, .rel (.list e))])
    -- co_env.cpp:529
    | .pickL => if s.lk (.list t) = none then
        some ({ s with lk := setL s.lk (.list t) (some t), pc := upd s.pc t .pickP }, [(t, .acq (.list t))]) else none
    -- co_env.cpp:531-547
    | .pickP => match pick with
      | some c => if c ∈ s.q t then some ({ s with cur := upd s.cur t (some c), pc := upd s.pc t .pickU }, [(t, .wr (.pick t c))]) else none
      | none => some ({ s with cur := upd s.cur t none, pc := upd s.pc t .pickU }, [])
    -- co_env.cpp:548
    | .pickU => some ({ s with lk := setL s.lk (.list t) none, pc := upd s.pc t .run }, [(t, .rel (.list t))])
    -- co_manager.cpp:495
    | .startL k => if s.lk .timers = none then
        some ({ s with lk := setL s.lk .timers (some t), pc := upd s.pc t (.startP k) }, [(t, .acq .timers)]) else none
    -- co_manager.cpp:496
    | .startP k => some ({ s with timers := s.timers ++ [k], pc := upd s.pc t .startU }, [(t, .wr (.start k))])
    -- co_manager.cpp:498
    | .startU => some ({ s with lk := setL s.lk .timers none, pc := upd s.pc t .run }, [(t, .rel .timers)])
    -- co_manager.cpp:351; also after waiting, 357, 382
    | .fireL => if s.lk .timers = none then
        some ({ s with lk := setL s.lk .timers (some t), pc := upd s.pc t .fireP }, [(t, .acq .timers)]) else none
    -- co_manager.cpp:363-378
    | .fireP => match fire with
      | some (k, e, c) => if k ∈ s.timers ∧ s.made c = false then
          some ({ s with timers := if keep then s.timers else s.timers.erase k, made := upd s.made c true, cb := upd s.cb c (some k),
                         pc := upd s.pc t (.addL e c true) }, [(t, .wr (.fire k c))]) else none
      | none => some ({ s with pc := upd s.pc t .fireU }, [])
    -- co_manager.cpp:357, 382 (waiting releases the lock), 385
    | .fireU => some ({ s with lk := setL s.lk .timers none, pc := upd s.pc t .run }, [(t, .rel .timers)])

/-! ## Locks -/

/-- The locks a thread has at a point. (Concerns co_env.cpp:58-548, co_manager.cpp:349-498.) -/
def Pc.has (t : Nat) : Pc → Lk → Bool
  | .run, _ => false
  | .addL _ _ f, l => f && l == .timers
  | .addP e _ f, l => l == .list e || (f && l == .timers)
  | .addU e _ f, l => l == .list e || (f && l == .timers)
  | .pickL, _ => false
  | .pickP, l => l == .list t
  | .pickU, l => l == .list t
  | .startL _, _ => false
  | .startP _, l => l == .timers
  | .startU, l => l == .timers
  | .fireL, _ => false
  | .fireP, l => l == .timers
  | .fireU, l => l == .timers

/-- Invariant: who has which lock, and that every access to the lists is made by who has the lock. (Concerns co_env.cpp:58-548, co_manager.cpp:349-498.) -/
structure LInv {X : Type} (s : St) (tr : Tr Lk (Loc X)) : Prop where
  has : ∀ t l, (s.pc t).has t l = true ↔ s.lk l = some t
  holder : ∀ l, holder l tr = s.lk l
  wf : WF tr
  guard : ∀ (k a : Nat) (d : Loc X) (l : Lk), tr[k]? = some (a, .wr d) → d.lock = some l → Hb.holder l (tr.take k) = some a

theorem take_snoc {α : Type} (tr : List α) (x : α) (k : Nat) (h : k ≤ tr.length) : (tr ++ [x]).take k = tr.take k := by
  rw [List.take_append_of_le_length h]

/-- A step that adds one operation. -/
theorem LInv.snoc {X : Type} {s s' : St} {tr : Tr Lk (Loc X)} (h : LInv s tr) (x : Nat × Op Lk (Loc X))
    (has : ∀ t l, (s'.pc t).has t l = true ↔ s'.lk l = some t) (hold : ∀ l, Hb.holder l (tr ++ [x]) = s'.lk l)
    (hacq : ∀ l, x.2 = .acq l → s.lk l = none) (hrel : ∀ l, x.2 = .rel l → s.lk l = some x.1)
    (hwr : ∀ d l, x.2 = .wr d → d.lock = some l → s.lk l = some x.1) : LInv s' (tr ++ [x]) := by
  refine ⟨has, hold, WF.snoc h.wf _ (fun l hl => by rw [h.holder]; exact hacq l hl) (fun l hl => by rw [h.holder]; exact hrel l hl), ?_⟩
  intro k a d l hk hd
  rcases getElem?_snoc _ _ _ _ hk with ⟨hlt, hk'⟩ | ⟨rfl, hk'⟩
  · rw [take_snoc _ _ _ (by omega)]; exact h.guard k a d l hk' hd
  · rw [take_snoc _ _ _ (by omega), List.take_length, h.holder]
    have := hwr d l (by rw [← hk']) hd
    rw [← hk'] at this; exact this

theorem linv_init {X : Type} : LInv St.init ([] : Tr Lk (Loc X)) :=
  ⟨by simp [St.init, Pc.has], fun _ => rfl, by intro k a l; simp, by intro k a d l h; simp at h⟩

theorem linv_step {X : Type} (s : St) (a : Act X) (s' : St) (e tr : Tr Lk (Loc X)) (h : LInv s tr) (hs : step s a = some (s', e)) :
    LInv s' (tr ++ e) := by
  have hh := h.has
  have ho := h.holder
  -- no operation
  have quiet : ∀ (t : Nat) (p : Pc) (s' : St), s'.pc = upd s.pc t p → s'.lk = s.lk → (∀ l, p.has t l = (s.pc t).has t l) → LInv s' (tr ++ []) := by
    intro t p s' hpc hlk hp
    rw [List.append_nil]
    refine ⟨?_, by rw [hlk]; exact ho, h.wf, h.guard⟩
    intro u l
    rw [hpc, hlk, upd_apply]
    split
    · rename_i hu; subst hu; rw [hp]; exact hh u l
    · exact hh u l
  -- an access
  have acc : ∀ (t : Nat) (p : Pc) (d : Loc X) (m : Lk) (s' : St), d.lock = some m → (s.pc t).has t m = true →
      s'.pc = upd s.pc t p → s'.lk = s.lk → (∀ l, p.has t l = (s.pc t).has t l) → LInv s' (tr ++ [(t, .wr d)]) := by
    intro t p d m s' hd hm hpc hlk hp
    have hq := quiet t p s' hpc hlk hp
    rw [List.append_nil] at hq
    refine h.snoc _ hq.has ?_ ?_ ?_ ?_
    · intro l; rw [holder_snoc, ho, hlk]
    · intro l hl; simp at hl
    · intro l hl; simp at hl
    · intro d' l hd' hl
      simp only [Op.wr.injEq] at hd'
      subst hd'
      rw [hd] at hl; cases hl
      exact (hh t m).1 hm
  -- locking
  have lock : ∀ (t : Nat) (p : Pc) (m : Lk) (s' : St), s.lk m = none → s'.pc = upd s.pc t p → s'.lk = setL s.lk m (some t) →
      (∀ l, p.has t l = (l == m || (s.pc t).has t l)) → LInv s' (tr ++ [(t, .acq m)]) := by
    intro t p m s' hm hpc hlk hp
    refine h.snoc _ ?_ ?_ ?_ ?_ ?_
    · intro u l
      rw [hpc, hlk, upd_apply]
      have h1 := hh u l
      simp only [setL]
      split
      · rename_i hu; subst hu
        rw [hp]
        by_cases hlm : l = m
        · simp [hlm]
        · simp [hlm, h1]
      · rename_i hu
        split
        · rename_i hlm; subst hlm
          rw [h1, hm]; simp [Ne.symm hu]
        · exact h1
    · intro l; rw [holder_snoc]; simp only [hlk, setL, ho, eq_comm]
    · intro l hl; simp only [Op.acq.injEq] at hl; subst hl; exact hm
    · intro l hl; simp at hl
    · intro d l hl; simp at hl
  -- unlocking
  have unlock : ∀ (t : Nat) (p : Pc) (m : Lk) (s' : St), (s.pc t).has t m = true → s'.pc = upd s.pc t p → s'.lk = setL s.lk m none →
      (∀ l, p.has t l = (l != m && (s.pc t).has t l)) → LInv s' (tr ++ [(t, .rel m)]) := by
    intro t p m s' hm hpc hlk hp
    have hm' := (hh t m).1 hm
    refine h.snoc _ ?_ ?_ ?_ ?_ ?_
    · intro u l
      rw [hpc, hlk, upd_apply]
      have h1 := hh u l
      simp only [setL]
      split
      · rename_i hu; subst hu
        rw [hp]
        by_cases hlm : l = m
        · simp [hlm]
        · simp [hlm, h1]
      · rename_i hu
        split
        · rename_i hlm; subst hlm
          rw [h1, hm']; simp [Ne.symm hu]
        · exact h1
    · intro l; rw [holder_snoc]; simp only [hlk, setL, ho, eq_comm]
    · intro l hl; simp at hl
    · intro l hl; simp only [Op.rel.injEq] at hl; subst hl; exact hm'
    · intro d l hl; simp at hl
  cases a with
  | create t e c =>
    simp only [step] at hs; split at hs <;> cases hs
    rename_i hp
    exact quiet t _ _ rfl rfl (by simp [hp.1, Pc.has])
  | resched t =>
    simp only [step] at hs; split at hs <;> cases hs
    rename_i hp
    exact quiet t _ _ rfl rfl (by simp [hp, Pc.has])
  | start t k =>
    simp only [step] at hs; split at hs <;> cases hs
    rename_i hp
    exact quiet t _ _ rfl rfl (by simp [hp.1, Pc.has])
  | poll t =>
    simp only [step] at hs; split at hs <;> cases hs
    rename_i hp
    exact quiet t _ _ rfl rfl (by simp [hp, Pc.has])
  | own t w x =>
    simp only [step] at hs; split at hs <;> cases hs
    refine h.snoc _ hh ?_ ?_ ?_ ?_
    · intro l; rw [holder_snoc, ← ho]; cases w <;> simp
    · intro l hl; cases w <;> simp at hl
    · intro l hl; cases w <;> simp at hl
    · intro d l hd hl; cases w <;> simp at hd; subst hd; simp [Loc.lock] at hl
  | go t pick fire keep =>
    simp only [step] at hs
    split at hs
    · cases hs
    · rename_i e c f hp
      split at hs <;> cases hs
      rename_i hl
      exact lock t _ _ _ hl rfl rfl (by simp [hp, Pc.has])
    · rename_i e c f hp
      cases hs
      exact acc t _ _ (.list e) _ rfl (by simp [hp, Pc.has]) rfl rfl (by simp [hp, Pc.has])
    · rename_i e c f hp
      cases hs
      refine unlock t _ _ _ (by simp [hp, Pc.has]) rfl rfl ?_
      intro l
      rw [hp]
      by_cases hl : l = .list e
      · subst hl; cases f <;> simp [Pc.has]
      · have : (l != Lk.list e) = true := by simp [hl]
        cases f <;> simp [Pc.has, hl, this]
    · rename_i hp
      split at hs <;> cases hs
      rename_i hl
      exact lock t _ _ _ hl rfl rfl (by simp [hp, Pc.has])
    · rename_i hp
      split at hs
      · split at hs <;> cases hs
        exact acc t _ _ (.list t) _ rfl (by simp [hp, Pc.has]) rfl rfl (by simp [hp, Pc.has])
      · cases hs
        exact quiet t _ _ rfl rfl (by simp [hp, Pc.has])
    · rename_i hp
      cases hs
      exact unlock t _ _ _ (by simp [hp, Pc.has]) rfl rfl (by intro l; rw [hp]; by_cases hl : l = .list t <;> simp [Pc.has, hl])
    · rename_i k hp
      split at hs <;> cases hs
      rename_i hl
      exact lock t _ _ _ hl rfl rfl (by simp [hp, Pc.has])
    · rename_i k hp
      cases hs
      exact acc t _ _ .timers _ rfl (by simp [hp, Pc.has]) rfl rfl (by simp [hp, Pc.has])
    · rename_i hp
      cases hs
      exact unlock t _ _ _ (by simp [hp, Pc.has]) rfl rfl (by intro l; rw [hp]; by_cases hl : l = .timers <;> simp [Pc.has, hl])
    · rename_i hp
      split at hs <;> cases hs
      rename_i hl
      exact lock t _ _ _ hl rfl rfl (by simp [hp, Pc.has])
    · rename_i hp
      split at hs
      · split at hs <;> cases hs
        exact acc t _ _ .timers _ rfl (by simp [hp, Pc.has]) rfl rfl (by simp [hp, Pc.has])
      · cases hs
        exact quiet t _ _ rfl rfl (by simp [hp, Pc.has])
    · rename_i hp
      cases hs
      exact unlock t _ _ _ (by simp [hp, Pc.has]) rfl rfl (by intro l; rw [hp]; by_cases hl : l = .timers <;> simp [Pc.has, hl])

/-! ## Coroutines and timers -/

/-- The coroutine a thread is about to add. (Concerns co_env.cpp:58-548, co_manager.cpp:349-498.) -/
def Pc.adds : Pc → Option Nat
  | .addL _ c _ => some c
  | .addP _ c _ => some c
  | _ => none

/-- The timer a thread is about to put into the queue. (Concerns co_env.cpp:58-548, co_manager.cpp:349-498.) -/
def Pc.starts : Pc → Option Nat
  | .startL k => some k
  | .startP k => some k
  | _ => none

/-- Invariant: what is in the lists was put there, what runs was chosen, every coroutine is added once and every timer put into the queue once. (Concerns co_env.cpp:58-548, co_manager.cpp:349-498.) -/
structure DInv {X : Type} (s : St) (tr : Tr Lk (Loc X)) : Prop where
  q : ∀ e c, c ∈ s.q e → ∃ (n a : Nat), tr[n]? = some (a, .wr (.add e c))
  cur : ∀ t c, s.cur t = some c → ∃ m : Nat, tr[m]? = some (t, .wr (.pick t c))
  ownR : ∀ (j t c : Nat) x, tr[j]? = some (t, .rd (.own (some c) x)) → ∃ m : Nat, m < j ∧ tr[m]? = some (t, .wr (.pick t c))
  ownW : ∀ (j t c : Nat) x, tr[j]? = some (t, .wr (.own (some c) x)) → ∃ m : Nat, m < j ∧ tr[m]? = some (t, .wr (.pick t c))
  pick : ∀ (m t e c : Nat), tr[m]? = some (t, .wr (.pick e c)) → ∃ (n a : Nat), n < m ∧ tr[n]? = some (a, .wr (.add e c))
  made : ∀ (n a e c : Nat), tr[n]? = some (a, .wr (.add e c)) → s.made c = true
  pend : ∀ t c, (s.pc t).adds = some c → s.made c = true ∧ ∀ (n a e : Nat), tr[n]? ≠ some (a, .wr (.add e c))
  pendU : ∀ t u c, (s.pc t).adds = some c → (s.pc u).adds = some c → t = u
  once : ∀ (n m a b e e' c : Nat), tr[n]? = some (a, .wr (.add e c)) → tr[m]? = some (b, .wr (.add e' c)) → n = m
  cbMade : ∀ c k, s.cb c = some k → s.made c = true
  pendCb : ∀ t c k, (s.pc t).adds = some c → s.cb c = some k → ∃ m : Nat, tr[m]? = some (t, .wr (.fire k c))
  addCb : ∀ (n a e c k : Nat), tr[n]? = some (a, .wr (.add e c)) → s.cb c = some k → ∃ m : Nat, m < n ∧ tr[m]? = some (a, .wr (.fire k c))
  timers : ∀ k, k ∈ s.timers → ∃ (n a : Nat), tr[n]? = some (a, .wr (.start k))
  fire : ∀ (m a k c : Nat), tr[m]? = some (a, .wr (.fire k c)) → ∃ (n b : Nat), n < m ∧ tr[n]? = some (b, .wr (.start k))
  used : ∀ (n a k : Nat), tr[n]? = some (a, .wr (.start k)) → s.used k = true
  pendS : ∀ t k, (s.pc t).starts = some k → s.used k = true ∧ ∀ (n a : Nat), tr[n]? ≠ some (a, .wr (.start k))
  pendSU : ∀ t u k, (s.pc t).starts = some k → (s.pc u).starts = some k → t = u
  onceS : ∀ (n m a b k : Nat), tr[n]? = some (a, .wr (.start k)) → tr[m]? = some (b, .wr (.start k)) → n = m

theorem snoc_iff {α : Type} (tr : List α) (x y : α) (k : Nat) :
    (tr ++ [x])[k]? = some y ↔ (tr[k]? = some y ∧ k < tr.length) ∨ (k = tr.length ∧ y = x) := by
  constructor
  · intro h
    rcases getElem?_snoc _ _ _ _ h with h | h
    · exact .inl ⟨h.2, h.1⟩
    · exact .inr h
  · rintro (h | ⟨rfl, rfl⟩)
    · rw [List.getElem?_append_left h.2]; exact h.1
    · simp

theorem lt_of {α : Type} {tr : List α} {y : α} {k : Nat} (h : tr[k]? = some y) : k < tr.length := (List.getElem?_eq_some_iff.1 h).1

theorem dinv_init {X : Type} : DInv St.init ([] : Tr Lk (Loc X)) := by
  constructor <;> simp [St.init, Pc.adds, Pc.starts]

/-- A step that accesses nothing. -/
theorem DInv.frame {X : Type} {s s' : St} {tr : Tr Lk (Loc X)} (h : DInv s tr) (e : Tr Lk (Loc X))
    (he : e = [] ∨ ∃ t l, e = [(t, .acq l)] ∨ e = [(t, .rel l)])
    (hq : s'.q = s.q) (hc : ∀ t c, s'.cur t = some c → s.cur t = some c) (ht : s'.timers = s.timers) (hm : ∀ c, s.made c = true → s'.made c = true)
    (hu : ∀ k, s.used k = true → s'.used k = true) (hcb : s'.cb = s.cb)
    (ha : ∀ t c, (s'.pc t).adds = some c → (s.pc t).adds = some c ∨ s.made c = false ∧ s'.made c = true ∧ ∀ u, (s'.pc u).adds = some c → u = t)
    (hst : ∀ t k, (s'.pc t).starts = some k → (s.pc t).starts = some k ∨ s.used k = false ∧ s'.used k = true ∧ ∀ u, (s'.pc u).starts = some k → u = t) :
    DInv s' (tr ++ e) := by
  have hw : ∀ (n a : Nat) (d : Loc X), (tr ++ e)[n]? = some (a, .wr d) ↔ tr[n]? = some (a, .wr d) := by
    intro n a d
    rcases he with rfl | ⟨t, l, rfl | rfl⟩
    · rw [List.append_nil]
    · rw [snoc_iff]; constructor
      · rintro (h | ⟨_, h⟩)
        · exact h.1
        · cases h
      · intro h; exact .inl ⟨h, lt_of h⟩
    · rw [snoc_iff]; constructor
      · rintro (h | ⟨_, h⟩)
        · exact h.1
        · cases h
      · intro h; exact .inl ⟨h, lt_of h⟩
  have hr : ∀ (n a : Nat) (d : Loc X), (tr ++ e)[n]? = some (a, .rd d) → tr[n]? = some (a, .rd d) := by
    intro n a d
    rcases he with rfl | ⟨t, l, rfl | rfl⟩
    · rw [List.append_nil]; exact id
    · rw [snoc_iff]
      rintro (h | ⟨_, h⟩)
      · exact h.1
      · cases h
    · rw [snoc_iff]
      rintro (h | ⟨_, h⟩)
      · exact h.1
      · cases h
  obtain ⟨h1, h2, h3, h4, h5, h6, h7, h8, h9, h10, h11, h12, h13, h14, h15, h16, h17, h18⟩ := h
  constructor
  · intro e c hc; simp only [hw]; rw [hq] at hc; exact h1 e c hc
  · intro t c h; simp only [hw]; exact h2 t c (hc t c h)
  · intro j t c x h; simp only [hw]; exact h3 j t c x (hr _ _ _ h)
  · intro j t c x h; simp only [hw] at h ⊢; exact h4 j t c x h
  · intro m t e c h; simp only [hw] at h ⊢; exact h5 m t e c h
  · intro n a e c h; rw [hw] at h; exact hm c (h6 n a e c h)
  · intro t c h
    simp only [ne_eq, hw]
    rcases ha t c h with h | ⟨h, h', _⟩
    · exact ⟨hm c (h7 t c h).1, (h7 t c h).2⟩
    · refine ⟨h', fun n a e hn => ?_⟩
      rw [h6 n a e c hn] at h; cases h
  · intro t u c ht hu
    rcases ha t c ht with h | ⟨_, _, h⟩
    · rcases ha u c hu with h' | ⟨_, _, h'⟩
      · exact h8 t u c h h'
      · exact h' t ht
    · exact (h u hu).symm
  · intro n m a b e e' c h h'; rw [hw] at h h'; exact h9 n m a b e e' c h h'
  · intro c k h; rw [hcb] at h; exact hm c (h10 c k h)
  · intro t c k h hk
    rw [hcb] at hk
    simp only [hw]
    rcases ha t c h with h | ⟨h, _, _⟩
    · exact h11 t c k h hk
    · rw [h10 c k hk] at h; cases h
  · intro n a e c k h hk; rw [hcb] at hk; simp only [hw] at h ⊢; exact h12 n a e c k h hk
  · intro k hk; rw [ht] at hk; simp only [hw]; exact h13 k hk
  · intro m a k c h; simp only [hw] at h ⊢; exact h14 m a k c h
  · intro n a k h; rw [hw] at h; exact hu k (h15 n a k h)
  · intro t k h
    simp only [ne_eq, hw]
    rcases hst t k h with h | ⟨h, h', _⟩
    · exact ⟨hu k (h16 t k h).1, (h16 t k h).2⟩
    · refine ⟨h', fun n a hn => ?_⟩
      rw [h15 n a k hn] at h; cases h
  · intro t u k ht hu
    rcases hst t k ht with h | ⟨_, _, h⟩
    · rcases hst u k hu with h' | ⟨_, _, h'⟩
      · exact h17 t u k h h'
      · exact h' t ht
    · exact (h u hu).symm
  · intro n m a b k h h'; rw [hw] at h h'; exact h18 n m a b k h h'

/-- Only thread `t` moved, and it is not about to add or start anything new. -/
theorem keep_adds {f : Nat → Pc} {t : Nat} {p : Pc} (h : p.adds = none ∨ p.adds = (f t).adds) (u c : Nat) (hu : ((upd f t p) u).adds = some c) :
    (f u).adds = some c := by
  rw [upd_apply] at hu
  split at hu
  · rename_i e; subst e
    rcases h with h | h
    · rw [h] at hu; cases hu
    · rw [← h]; exact hu
  · exact hu

theorem keep_starts {f : Nat → Pc} {t : Nat} {p : Pc} (h : p.starts = none ∨ p.starts = (f t).starts) (u k : Nat)
    (hu : ((upd f t p) u).starts = some k) : (f u).starts = some k := by
  rw [upd_apply] at hu
  split at hu
  · rename_i e; subst e
    rcases h with h | h
    · rw [h] at hu; cases hu
    · rw [← h]; exact hu
  · exact hu

/-- Where the writes are after one more operation. -/
theorem wr_snoc {X : Type} (tr : Tr Lk (Loc X)) (t : Nat) (d : Loc X) (n a : Nat) (d' : Loc X) :
    (tr ++ [(t, .wr d)])[n]? = some (a, .wr d') ↔ tr[n]? = some (a, .wr d') ∨ (n = tr.length ∧ a = t ∧ d' = d) := by
  rw [snoc_iff]
  constructor
  · rintro (h | ⟨h, h'⟩)
    · exact .inl h.1
    · simp only [Prod.mk.injEq, Op.wr.injEq] at h'; exact .inr ⟨h, h'⟩
  · rintro (h | ⟨rfl, rfl, rfl⟩)
    · exact .inl ⟨h, lt_of h⟩
    · exact .inr ⟨rfl, rfl⟩

theorem rd_snoc {X : Type} (tr : Tr Lk (Loc X)) (t : Nat) (d : Loc X) (n a : Nat) (d' : Loc X) :
    (tr ++ [(t, .wr d)])[n]? = some (a, .rd d') ↔ tr[n]? = some (a, .rd d') := by
  rw [snoc_iff]
  constructor
  · rintro (h | ⟨h, h'⟩)
    · exact h.1
    · simp at h'
  · intro h; exact .inl ⟨h, lt_of h⟩

theorem DInv.addP {X : Type} {s : St} {tr : Tr Lk (Loc X)} (h : DInv s tr) {t e c : Nat} {f : Bool} (hp : s.pc t = .addP e c f) :
    DInv { s with q := upd s.q e (s.q e ++ [c]), pc := upd s.pc t (.addU e c f) } (tr ++ [(t, .wr (.add e c))]) := by
  have lt : ∀ (n : Nat) (y : Nat × Op Lk (Loc X)), tr[n]? = some y → n < tr.length := fun _ _ => lt_of
  obtain ⟨h1, h2, h3, h4, h5, h6, h7, h8, h9, h10, h11, h12, h13, h14, h15, h16, h17, h18⟩ := h
  constructor <;> simp only [wr_snoc, rd_snoc, ne_eq, not_or]
  · clear * - h1  hp lt; grind [Pc.adds, Pc.starts, upd_apply, List.mem_of_mem_erase]
  · clear * - h2  hp lt; grind [Pc.adds, Pc.starts, upd_apply, List.mem_of_mem_erase]
  · clear * - h3  hp lt; grind [Pc.adds, Pc.starts, upd_apply, List.mem_of_mem_erase]
  · clear * - h4 h2 hp lt; grind [Pc.adds, Pc.starts, upd_apply, List.mem_of_mem_erase]
  · rintro m t' e' c' (hm | ⟨_, _, hm⟩)
    · obtain ⟨n, a, hn, ha⟩ := h5 m t' e' c' hm
      exact ⟨n, a, hn, .inl ha⟩
    · cases hm
  · clear * - h6 h7 hp lt; grind [Pc.adds, Pc.starts, upd_apply, List.mem_of_mem_erase]
  · clear * - h7 h6 h8 hp lt; grind [Pc.adds, Pc.starts, upd_apply, List.mem_of_mem_erase]
  · clear * - h8 h7 hp lt; grind [Pc.adds, Pc.starts, upd_apply, List.mem_of_mem_erase]
  · clear * - h9 h7 h6 hp lt; grind [Pc.adds, Pc.starts, upd_apply, List.mem_of_mem_erase]
  · clear * - h10  hp lt; grind [Pc.adds, Pc.starts, upd_apply, List.mem_of_mem_erase]
  · clear * - h11 h10 h7 h8 hp lt; grind [Pc.adds, Pc.starts, upd_apply, List.mem_of_mem_erase]
  · clear * - h12 h11 h6 h10 hp lt; grind [Pc.adds, Pc.starts, upd_apply, List.mem_of_mem_erase]
  · clear * - h13  hp lt; grind [Pc.adds, Pc.starts, upd_apply, List.mem_of_mem_erase]
  · clear * - h14 h13 hp lt; grind [Pc.adds, Pc.starts, upd_apply, List.mem_of_mem_erase]
  · clear * - h15 h16 hp lt; grind [Pc.adds, Pc.starts, upd_apply, List.mem_of_mem_erase]
  · clear * - h16 h15 h17 hp lt; grind [Pc.adds, Pc.starts, upd_apply, List.mem_of_mem_erase]
  · clear * - h17 h16 hp lt; grind [Pc.adds, Pc.starts, upd_apply, List.mem_of_mem_erase]
  · clear * - h18 h16 h15 hp lt; grind [Pc.adds, Pc.starts, upd_apply, List.mem_of_mem_erase]

theorem DInv.pickP {X : Type} {s : St} {tr : Tr Lk (Loc X)} (h : DInv s tr) {t c : Nat} (hp : s.pc t = .pickP) (hc : c ∈ s.q t) :
    DInv { s with cur := upd s.cur t (some c), pc := upd s.pc t .pickU } (tr ++ [(t, .wr (.pick t c))]) := by
  have lt : ∀ (n : Nat) (y : Nat × Op Lk (Loc X)), tr[n]? = some y → n < tr.length := fun _ _ => lt_of
  obtain ⟨h1, h2, h3, h4, h5, h6, h7, h8, h9, h10, h11, h12, h13, h14, h15, h16, h17, h18⟩ := h
  constructor <;> simp only [wr_snoc, rd_snoc, ne_eq, not_or]
  · clear * - h1  hp hc lt; grind [Pc.adds, Pc.starts, upd_apply, List.mem_of_mem_erase]
  · clear * - h2  hp hc lt; grind [Pc.adds, Pc.starts, upd_apply, List.mem_of_mem_erase]
  · clear * - h3  hp hc lt; grind [Pc.adds, Pc.starts, upd_apply, List.mem_of_mem_erase]
  · clear * - h4 h2 hp hc lt; grind [Pc.adds, Pc.starts, upd_apply, List.mem_of_mem_erase]
  · clear * - h5 h1 hp hc lt; grind [Pc.adds, Pc.starts, upd_apply, List.mem_of_mem_erase]
  · clear * - h6 h7 hp hc lt; grind [Pc.adds, Pc.starts, upd_apply, List.mem_of_mem_erase]
  · clear * - h7 h6 h8 hp hc lt; grind [Pc.adds, Pc.starts, upd_apply, List.mem_of_mem_erase]
  · clear * - h8 h7 hp hc lt; grind [Pc.adds, Pc.starts, upd_apply, List.mem_of_mem_erase]
  · clear * - h9 h7 h6 hp hc lt; grind [Pc.adds, Pc.starts, upd_apply, List.mem_of_mem_erase]
  · clear * - h10  hp hc lt; grind [Pc.adds, Pc.starts, upd_apply, List.mem_of_mem_erase]
  · clear * - h11 h10 h7 h8 hp hc lt; grind [Pc.adds, Pc.starts, upd_apply, List.mem_of_mem_erase]
  · clear * - h12 h11 h6 h10 hp hc lt; grind [Pc.adds, Pc.starts, upd_apply, List.mem_of_mem_erase]
  · clear * - h13  hp hc lt; grind [Pc.adds, Pc.starts, upd_apply, List.mem_of_mem_erase]
  · clear * - h14 h13 hp hc lt; grind [Pc.adds, Pc.starts, upd_apply, List.mem_of_mem_erase]
  · clear * - h15 h16 hp hc lt; grind [Pc.adds, Pc.starts, upd_apply, List.mem_of_mem_erase]
  · clear * - h16 h15 h17 hp hc lt; grind [Pc.adds, Pc.starts, upd_apply, List.mem_of_mem_erase]
  · clear * - h17 h16 hp hc lt; grind [Pc.adds, Pc.starts, upd_apply, List.mem_of_mem_erase]
  · clear * - h18 h16 h15 hp hc lt; grind [Pc.adds, Pc.starts, upd_apply, List.mem_of_mem_erase]

theorem DInv.startP {X : Type} {s : St} {tr : Tr Lk (Loc X)} (h : DInv s tr) {t k : Nat} (hp : s.pc t = .startP k) :
    DInv { s with timers := s.timers ++ [k], pc := upd s.pc t .startU } (tr ++ [(t, .wr (.start k))]) := by
  have lt : ∀ (n : Nat) (y : Nat × Op Lk (Loc X)), tr[n]? = some y → n < tr.length := fun _ _ => lt_of
  obtain ⟨h1, h2, h3, h4, h5, h6, h7, h8, h9, h10, h11, h12, h13, h14, h15, h16, h17, h18⟩ := h
  constructor <;> simp only [wr_snoc, rd_snoc, ne_eq, not_or]
  · clear * - h1  hp lt; grind [Pc.adds, Pc.starts, upd_apply, List.mem_of_mem_erase]
  · clear * - h2  hp lt; grind [Pc.adds, Pc.starts, upd_apply, List.mem_of_mem_erase]
  · clear * - h3  hp lt; grind [Pc.adds, Pc.starts, upd_apply, List.mem_of_mem_erase]
  · clear * - h4 h2 hp lt; grind [Pc.adds, Pc.starts, upd_apply, List.mem_of_mem_erase]
  · clear * - h5 h1 hp lt; grind [Pc.adds, Pc.starts, upd_apply, List.mem_of_mem_erase]
  · clear * - h6 h7 hp lt; grind [Pc.adds, Pc.starts, upd_apply, List.mem_of_mem_erase]
  · clear * - h7 h6 h8 hp lt; grind [Pc.adds, Pc.starts, upd_apply, List.mem_of_mem_erase]
  · clear * - h8 h7 hp lt; grind [Pc.adds, Pc.starts, upd_apply, List.mem_of_mem_erase]
  · clear * - h9 h7 h6 hp lt; grind [Pc.adds, Pc.starts, upd_apply, List.mem_of_mem_erase]
  · clear * - h10  hp lt; grind [Pc.adds, Pc.starts, upd_apply, List.mem_of_mem_erase]
  · clear * - h11 h10 h7 h8 hp lt; grind [Pc.adds, Pc.starts, upd_apply, List.mem_of_mem_erase]
  · clear * - h12 h11 h6 h10 hp lt; grind [Pc.adds, Pc.starts, upd_apply, List.mem_of_mem_erase]
  · clear * - h13  hp lt; grind [Pc.adds, Pc.starts, upd_apply, List.mem_of_mem_erase]
  · rintro m a k' c' (hm | ⟨_, _, hm⟩)
    · obtain ⟨n, b, hn, hb⟩ := h14 m a k' c' hm
      exact ⟨n, b, hn, .inl hb⟩
    · cases hm
  · clear * - h15 h16 hp lt; grind [Pc.adds, Pc.starts, upd_apply, List.mem_of_mem_erase]
  · clear * - h16 h15 h17 hp lt; grind [Pc.adds, Pc.starts, upd_apply, List.mem_of_mem_erase]
  · clear * - h17 h16 hp lt; grind [Pc.adds, Pc.starts, upd_apply, List.mem_of_mem_erase]
  · clear * - h18 h16 h15 hp lt; grind [Pc.adds, Pc.starts, upd_apply, List.mem_of_mem_erase]

theorem DInv.fireP {X : Type} {s : St} {tr : Tr Lk (Loc X)} (h : DInv s tr) {t k e c : Nat} {keep : Bool} (hp : s.pc t = .fireP) (hk : k ∈ s.timers ∧ s.made c = false) :
    DInv { s with timers := if keep then s.timers else s.timers.erase k, made := upd s.made c true, cb := upd s.cb c (some k), pc := upd s.pc t (.addL e c true) } (tr ++ [(t, .wr (.fire k c))]) := by
  have lt : ∀ (n : Nat) (y : Nat × Op Lk (Loc X)), tr[n]? = some y → n < tr.length := fun _ _ => lt_of
  obtain ⟨h1, h2, h3, h4, h5, h6, h7, h8, h9, h10, h11, h12, h13, h14, h15, h16, h17, h18⟩ := h
  constructor <;> simp only [wr_snoc, rd_snoc, ne_eq, not_or]
  · clear * - h1  hp hk lt; grind [Pc.adds, Pc.starts, upd_apply, List.mem_of_mem_erase]
  · clear * - h2  hp hk lt; grind [Pc.adds, Pc.starts, upd_apply, List.mem_of_mem_erase]
  · clear * - h3  hp hk lt; grind [Pc.adds, Pc.starts, upd_apply, List.mem_of_mem_erase]
  · clear * - h4 h2 hp hk lt; grind [Pc.adds, Pc.starts, upd_apply, List.mem_of_mem_erase]
  · clear * - h5 h1 hp hk lt; grind [Pc.adds, Pc.starts, upd_apply, List.mem_of_mem_erase]
  · clear * - h6 h7 hp hk lt; grind [Pc.adds, Pc.starts, upd_apply, List.mem_of_mem_erase]
  · clear * - h7 h6 h8 hp hk lt; grind [Pc.adds, Pc.starts, upd_apply, List.mem_of_mem_erase]
  · clear * - h8 h7 hp hk lt; grind [Pc.adds, Pc.starts, upd_apply, List.mem_of_mem_erase]
  · clear * - h9 h7 h6 hp hk lt; grind [Pc.adds, Pc.starts, upd_apply, List.mem_of_mem_erase]
  · clear * - h10  hp hk lt; grind [Pc.adds, Pc.starts, upd_apply, List.mem_of_mem_erase]
  · clear * - h11 h10 h7 h8 hp hk lt; grind [Pc.adds, Pc.starts, upd_apply, List.mem_of_mem_erase]
  · clear * - h12 h11 h6 h10 hp hk lt; grind [Pc.adds, Pc.starts, upd_apply, List.mem_of_mem_erase]
  · clear * - h13  hp hk lt; grind [Pc.adds, Pc.starts, upd_apply, List.mem_of_mem_erase]
  · clear * - h14 h13 hp hk lt; grind [Pc.adds, Pc.starts, upd_apply, List.mem_of_mem_erase]
  · clear * - h15 h16 hp hk lt; grind [Pc.adds, Pc.starts, upd_apply, List.mem_of_mem_erase]
  · clear * - h16 h15 h17 hp hk lt; grind [Pc.adds, Pc.starts, upd_apply, List.mem_of_mem_erase]
  · clear * - h17 h16 hp hk lt; grind [Pc.adds, Pc.starts, upd_apply, List.mem_of_mem_erase]
  · clear * - h18 h16 h15 hp hk lt; grind [Pc.adds, Pc.starts, upd_apply, List.mem_of_mem_erase]

theorem DInv.ownW' {X : Type} {s : St} {tr : Tr Lk (Loc X)} (h : DInv s tr) {t : Nat} {x : X} : DInv s (tr ++ [(t, .wr (.own (s.cur t) x))]) := by
  have lt : ∀ (n : Nat) (y : Nat × Op Lk (Loc X)), tr[n]? = some y → n < tr.length := fun _ _ => lt_of
  obtain ⟨h1, h2, h3, h4, h5, h6, h7, h8, h9, h10, h11, h12, h13, h14, h15, h16, h17, h18⟩ := h
  constructor <;> (try simp only [wr_snoc, rd_snoc, ne_eq, not_or])
  · clear * - h1  lt; grind [Pc.adds, Pc.starts, upd_apply, List.mem_of_mem_erase]
  · clear * - h2  lt; grind [Pc.adds, Pc.starts, upd_apply, List.mem_of_mem_erase]
  · clear * - h3  lt; grind [Pc.adds, Pc.starts, upd_apply, List.mem_of_mem_erase]
  · clear * - h4 h2 lt; grind [Pc.adds, Pc.starts, upd_apply, List.mem_of_mem_erase]
  · clear * - h5 h1 lt; grind [Pc.adds, Pc.starts, upd_apply, List.mem_of_mem_erase]
  · clear * - h6 h7 lt; grind [Pc.adds, Pc.starts, upd_apply, List.mem_of_mem_erase]
  · clear * - h7 h6 h8 lt; grind [Pc.adds, Pc.starts, upd_apply, List.mem_of_mem_erase]
  · clear * - h8 h7 lt; grind [Pc.adds, Pc.starts, upd_apply, List.mem_of_mem_erase]
  · clear * - h9 h7 h6 lt; grind [Pc.adds, Pc.starts, upd_apply, List.mem_of_mem_erase]
  · clear * - h10  lt; grind [Pc.adds, Pc.starts, upd_apply, List.mem_of_mem_erase]
  · clear * - h11 h10 h7 h8 lt; grind [Pc.adds, Pc.starts, upd_apply, List.mem_of_mem_erase]
  · clear * - h12 h11 h6 h10 lt; grind [Pc.adds, Pc.starts, upd_apply, List.mem_of_mem_erase]
  · clear * - h13  lt; grind [Pc.adds, Pc.starts, upd_apply, List.mem_of_mem_erase]
  · clear * - h14 h13 lt; grind [Pc.adds, Pc.starts, upd_apply, List.mem_of_mem_erase]
  · clear * - h15 h16 lt; grind [Pc.adds, Pc.starts, upd_apply, List.mem_of_mem_erase]
  · clear * - h16 h15 h17 lt; grind [Pc.adds, Pc.starts, upd_apply, List.mem_of_mem_erase]
  · clear * - h17 h16 lt; grind [Pc.adds, Pc.starts, upd_apply, List.mem_of_mem_erase]
  · clear * - h18 h16 h15 lt; grind [Pc.adds, Pc.starts, upd_apply, List.mem_of_mem_erase]

theorem wr_snoc' {X : Type} (tr : Tr Lk (Loc X)) (t : Nat) (d : Loc X) (n a : Nat) (d' : Loc X) :
    (tr ++ [(t, .rd d)])[n]? = some (a, .wr d') ↔ tr[n]? = some (a, .wr d') := by
  rw [snoc_iff]
  constructor
  · rintro (h | ⟨h, h'⟩)
    · exact h.1
    · simp at h'
  · intro h; exact .inl ⟨h, lt_of h⟩

theorem DInv.ownR' {X : Type} {s : St} {tr : Tr Lk (Loc X)} (h : DInv s tr) {t : Nat} {x : X} : DInv s (tr ++ [(t, .rd (.own (s.cur t) x))]) := by
  obtain ⟨h1, h2, h3, h4, h5, h6, h7, h8, h9, h10, h11, h12, h13, h14, h15, h16, h17, h18⟩ := h
  refine ⟨?_, ?_, ?_, ?_, ?_, ?_, ?_, h8, ?_, h10, ?_, ?_, ?_, ?_, ?_, ?_, h17, ?_⟩ <;> (try simp only [wr_snoc', ne_eq]) <;> try assumption
  intro j u c y hj
  rcases getElem?_snoc _ _ _ _ hj with ⟨_, hj'⟩ | ⟨rfl, hj'⟩
  · exact h3 j u c y hj'
  · simp only [Prod.mk.injEq, Op.rd.injEq, Loc.own.injEq] at hj'
    obtain ⟨rfl, hc, rfl⟩ := hj'
    obtain ⟨m, hm⟩ := h2 u c hc.symm
    exact ⟨m, lt_of hm, hm⟩

theorem dinv_step {X : Type} (s : St) (a : Act X) (s' : St) (e tr : Tr Lk (Loc X)) (h : DInv s tr) (hs : step s a = some (s', e)) :
    DInv s' (tr ++ e) := by
  -- nothing new
  have same : ∀ (t : Nat) (p : Pc) (s' : St) (e : Tr Lk (Loc X)), (e = [] ∨ ∃ t l, e = [(t, .acq l)] ∨ e = [(t, .rel l)]) → s'.pc = upd s.pc t p →
      s'.q = s.q → (∀ t c, s'.cur t = some c → s.cur t = some c) → s'.timers = s.timers → s'.made = s.made → s'.used = s.used → s'.cb = s.cb →
      (p.adds = none ∨ p.adds = (s.pc t).adds) → (p.starts = none ∨ p.starts = (s.pc t).starts) → DInv s' (tr ++ e) := by
    intro t p s' e he hpc hq hc ht hm hu hcb ha hs
    refine h.frame e he hq hc ht (by rw [hm]; exact fun _ => id) (by rw [hu]; exact fun _ => id) hcb ?_ ?_
    · intro u c hu; rw [hpc] at hu; exact .inl (keep_adds ha u c hu)
    · intro u c hu; rw [hpc] at hu; exact .inl (keep_starts hs u c hu)
  cases a with
  | create t e c =>
    simp only [step] at hs; split at hs <;> cases hs
    rename_i hp
    refine h.frame _ (.inl rfl) rfl (fun _ _ => id) rfl ?_ (fun _ => id) rfl ?_ ?_
    · intro d hd; simp only [upd_apply]; split
      · rfl
      · exact hd
    · intro u d hu
      by_cases hut : u = t
      · subst hut
        simp only [upd_same, Pc.adds, Option.some.injEq] at hu
        subst hu
        refine .inr ⟨hp.2, by simp, fun v hv => ?_⟩
        by_cases hvu : v = u
        · exact hvu
        · simp only [upd_apply, if_neg hvu] at hv
          have := (h.pend v _ hv).1
          rw [hp.2] at this; cases this
      · simp only [upd_apply, if_neg hut] at hu; exact .inl hu
    · intro u k hu; exact .inl (keep_starts (.inl rfl) u k hu)
  | resched t =>
    simp only [step] at hs; split at hs <;> cases hs
    exact same t _ _ _ (.inl rfl) rfl rfl (fun _ _ => id) rfl rfl rfl rfl (.inl rfl) (.inl rfl)
  | start t k =>
    simp only [step] at hs; split at hs <;> cases hs
    rename_i hp
    refine h.frame _ (.inl rfl) rfl (fun _ _ => id) rfl (fun _ => id) ?_ rfl ?_ ?_
    · intro d hd; simp only [upd_apply]; split
      · rfl
      · exact hd
    · intro u k hu; exact .inl (keep_adds (.inl rfl) u k hu)
    · intro u d hu
      by_cases hut : u = t
      · subst hut
        simp only [upd_same, Pc.starts, Option.some.injEq] at hu
        subst hu
        refine .inr ⟨hp.2, by simp, fun v hv => ?_⟩
        by_cases hvu : v = u
        · exact hvu
        · simp only [upd_apply, if_neg hvu] at hv
          have := (h.pendS v _ hv).1
          rw [hp.2] at this; cases this
      · simp only [upd_apply, if_neg hut] at hu; exact .inl hu
  | poll t =>
    simp only [step] at hs; split at hs <;> cases hs
    exact same t _ _ _ (.inl rfl) rfl rfl (fun _ _ => id) rfl rfl rfl rfl (.inl rfl) (.inl rfl)
  | own t w x =>
    simp only [step] at hs; split at hs <;> cases hs
    cases w
    · exact h.ownR'
    · exact h.ownW'
  | go t pick fire keep =>
    simp only [step] at hs
    split at hs
    · cases hs
    · rename_i hp
      split at hs <;> cases hs
      exact same t _ _ _ (.inr ⟨_, _, .inl rfl⟩) rfl rfl (fun _ _ => id) rfl rfl rfl rfl (.inr (by rw [hp]; rfl)) (.inl rfl)
    · rename_i e c f hp
      cases hs
      exact h.addP hp
    · rename_i f hp
      cases hs
      exact same t _ _ _ (.inr ⟨_, _, .inr rfl⟩) rfl rfl (fun _ _ => id) rfl rfl rfl rfl (.inl (by cases f <;> rfl)) (.inl (by cases f <;> rfl))
    · split at hs <;> cases hs
      exact same t _ _ _ (.inr ⟨_, _, .inl rfl⟩) rfl rfl (fun _ _ => id) rfl rfl rfl rfl (.inl rfl) (.inl rfl)
    · rename_i hp
      split at hs
      · split at hs <;> cases hs
        rename_i hc
        exact h.pickP hp hc
      · cases hs
        refine same t _ _ _ (.inl rfl) rfl rfl ?_ rfl rfl rfl rfl (.inl rfl) (.inl rfl)
        intro u c hu
        simp only [upd_apply] at hu
        split at hu
        · cases hu
        · exact hu
    · cases hs
      exact same t _ _ _ (.inr ⟨_, _, .inr rfl⟩) rfl rfl (fun _ _ => id) rfl rfl rfl rfl (.inl rfl) (.inl rfl)
    · rename_i hp
      split at hs <;> cases hs
      exact same t _ _ _ (.inr ⟨_, _, .inl rfl⟩) rfl rfl (fun _ _ => id) rfl rfl rfl rfl (.inl rfl) (.inr (by rw [hp]; rfl))
    · rename_i hp
      cases hs
      exact h.startP hp
    · cases hs
      exact same t _ _ _ (.inr ⟨_, _, .inr rfl⟩) rfl rfl (fun _ _ => id) rfl rfl rfl rfl (.inl rfl) (.inl rfl)
    · split at hs <;> cases hs
      exact same t _ _ _ (.inr ⟨_, _, .inl rfl⟩) rfl rfl (fun _ _ => id) rfl rfl rfl rfl (.inl rfl) (.inl rfl)
    · rename_i hp
      split at hs
      · split at hs <;> cases hs
        rename_i hk
        exact h.fireP hp hk
      · cases hs
        exact same t _ _ _ (.inl rfl) rfl rfl (fun _ _ => id) rfl rfl rfl rfl (.inl rfl) (.inl rfl)
    · cases hs
      exact same t _ _ _ (.inr ⟨_, _, .inr rfl⟩) rfl rfl (fun _ _ => id) rfl rfl rfl rfl (.inl rfl) (.inl rfl)

/-! ## C126 -/

/-- An access to the program's data by coroutine `c`. (Concerns co_env.cpp:58-548, co_manager.cpp:349-498.) -/
def Acc {X : Type} (c : Option Nat) (p : Op Lk (Loc X)) : Prop := ∃ x, p = .rd (.own c x) ∨ p = .wr (.own c x)

/-- Two accesses under the same lock are ordered. -/
theorem LInv.order {X : Type} {s : St} {tr : Tr Lk (Loc X)} (h : LInv s tr) {n m a b : Nat} {d d' : Loc X} {l : Lk} (hnm : n < m)
    (hn : tr[n]? = some (a, .wr d)) (hm : tr[m]? = some (b, .wr d')) (hd : d.lock = some l) (hd' : d'.lock = some l) : HB tr n m := by
  by_cases hab : a = b
  · subst hab; exact HB.po hnm hn hm
  · exact ordered h.wf l hnm hn hm hab (by simp) (h.guard _ _ _ _ hn hd) (h.guard _ _ _ _ hm hd')

/-- Where a coroutine runs: it was added, before every one of its accesses, and the addition comes before them. -/
theorem added {X : Type} {s : St} {tr : Tr Lk (Loc X)} (hl : LInv s tr) (hd : DInv s tr) {j b c : Nat} {p : Op Lk (Loc X)}
    (hj : tr[j]? = some (b, p)) (hp : Acc (some c) p) : ∃ n a : Nat, tr[n]? = some (a, .wr (.add b c)) ∧ HB tr n j := by
  have : ∃ m : Nat, m < j ∧ tr[m]? = some (b, .wr (.pick b c)) := by
    obtain ⟨x, rfl | rfl⟩ := hp
    · exact hd.ownR j b c x hj
    · exact hd.ownW j b c x hj
  obtain ⟨m, hmj, hm⟩ := this
  obtain ⟨n, a, hnm, hn⟩ := hd.pick m b b c hm
  exact ⟨n, a, hn, (hl.order hnm hn hm rfl rfl).trans (HB.po hmj hm hj)⟩

/-- **C126**: in every execution, everything that the thread that creates a coroutine has done before it adds the coroutine to an env comes
before everything the coroutine does. -/
theorem C126_creation_publishes {X : Type} (as : List (Act X)) (s : St) (tr : Tr Lk (Loc X)) (hr : runs step St.init as = some (s, tr))
    (n a e c : Nat) (hn : tr[n]? = some (a, .wr (.add e c))) (i : Nat) (p : Op Lk (Loc X)) (hi : i < n) (hp : tr[i]? = some (a, p))
    (j b : Nat) (q : Op Lk (Loc X)) (hj : tr[j]? = some (b, q)) (hq : Acc (some c) q) : HB tr i j := by
  have hl : LInv s tr := runs_hist (step := step) LInv (fun s a s' es tr => linv_step s a s' es tr) as _ _ _ _ linv_init hr
  have hd : DInv s tr := runs_hist (step := step) DInv (fun s a s' es tr => dinv_step s a s' es tr) as _ _ _ _ dinv_init hr
  obtain ⟨n', a', hn', h⟩ := added hl hd hj hq
  have := hd.once n n' a a' e b c hn hn'
  subst this
  exact (HB.po hi hp hn).trans h

/-- **C126**: in every execution, everything that the thread that starts a timer has done before comes before everything that the timer's
callback does, in whichever coroutine on whichever thread it runs. -/
theorem C126_timer_publishes {X : Type} (as : List (Act X)) (s : St) (tr : Tr Lk (Loc X)) (hr : runs step St.init as = some (s, tr))
    (n a k : Nat) (hn : tr[n]? = some (a, .wr (.start k))) (i : Nat) (p : Op Lk (Loc X)) (hi : i < n) (hp : tr[i]? = some (a, p))
    (j b c : Nat) (q : Op Lk (Loc X)) (hj : tr[j]? = some (b, q)) (hq : Acc (some c) q) (hc : s.cb c = some k) : HB tr i j := by
  have hl : LInv s tr := runs_hist (step := step) LInv (fun s a s' es tr => linv_step s a s' es tr) as _ _ _ _ linv_init hr
  have hd : DInv s tr := runs_hist (step := step) DInv (fun s a s' es tr => dinv_step s a s' es tr) as _ _ _ _ dinv_init hr
  obtain ⟨m, u, hm, h⟩ := added hl hd hj hq
  obtain ⟨f, hfm, hf⟩ := hd.addCb m u b c k hm hc
  obtain ⟨n', a', hnf, hn'⟩ := hd.fire f u k c hf
  have := hd.onceS n n' a a' k hn hn'
  subst this
  exact (((HB.po hi hp hn).trans (hl.order hnf hn hf rfl rfl)).trans (HB.po hfm hf hm)).trans h

/-- `n` steps of thread `t` in the library, which chooses coroutine `c`. (Concerns co_env.cpp:58-548, co_manager.cpp:349-498.) -/
def goes {X : Type} (t n : Nat) (c : Option Nat) : List (Act X) := List.replicate n (.go t c none false)

/-- Thread 0 writes data 7, creates coroutine 5 in env 1 and writes data 8; the thread of env 1 resumes 5, which reads both. (Concerns co_env.cpp:58-548, co_manager.cpp:349-498.) -/
def handOver : List (Act Nat) :=
  [.own 0 true 7, .create 0 1 5] ++ goes 0 3 none ++ [.own 0 true 8, .resched 1] ++ goes 1 3 (some 5) ++ [.own 1 false 7, .own 1 false 8]

/-- What comes out of it. (Concerns co_env.cpp:58-548, co_manager.cpp:349-498.) -/
def handOverTr : Tr Lk (Loc Nat) :=
  [(0, .wr (.own none 7)), (0, .acq (.list 1)), (0, .wr (.add 1 5)), (0, .rel (.list 1)), (0, .wr (.own none 8)), (1, .acq (.list 1)),
    (1, .wr (.pick 1 5)), (1, .rel (.list 1)), (1, .rd (.own (some 5) 7)), (1, .rd (.own (some 5) 8))]

example : ∃ s, runs step St.init handOver = some (s, handOverTr) := ⟨_, rfl⟩

/-- The coroutine's read of 7 comes after the creator's write. -/
example : HB handOverTr 0 8 :=
  C126_creation_publishes handOver _ _ rfl 2 0 1 5 rfl 0 _ (by decide) rfl 8 1 _ rfl ⟨7, .inl rfl⟩

/-- **C126**, its limit: what the creator does after it created the coroutine is not ordered with what the coroutine does; here thread 0 writes
data 8 after the creation, and coroutine 5 reads it. -/
theorem C126_after_creation_unordered : ∃ s tr, runs step St.init handOver = some (s, tr) ∧ tr[2]? = some (0, .wr (.add 1 5)) ∧
    tr[4]? = some (0, .wr (.own none 8)) ∧ tr[9]? = some (1, .rd (.own (some 5) 8)) ∧ ¬ HB tr 4 9 ∧ ¬ HB tr 9 4 := by
  refine ⟨_, handOverTr, rfl, rfl, rfl, rfl, ?_, ?_⟩
  · refine not_hb (fun i => i = 4) ?_ rfl (by decide)
    rintro i j a p b q rfl hj h1 h2 h3
    simp only [handOverTr, List.getElem?_cons_succ, List.getElem?_cons_zero, Option.some.injEq, Prod.mk.injEq] at h1
    obtain ⟨rfl, rfl⟩ := h1
    have hlt := (List.getElem?_eq_some_iff.1 h2).1
    simp only [handOverTr, List.length_cons, List.length_nil] at hlt
    have : j = 5 ∨ j = 6 ∨ j = 7 ∨ j = 8 ∨ j = 9 := by omega
    rcases this with rfl | rfl | rfl | rfl | rfl <;> simp [handOverTr] at h2 <;> obtain ⟨rfl, rfl⟩ := h2 <;> simp at h3
  · intro h
    exact absurd (Publish.hb_lt h) (by omega)

/-- Thread 0 writes data 7 and starts timer 3; the timer thread, 2, finds it due and creates coroutine 9 in env 1 for the callback; the thread
of env 1 resumes it, and it writes the data. (Concerns co_env.cpp:58-548, co_manager.cpp:349-498.) -/
def tick : List (Act Nat) :=
  [.own 0 true 7, .start 0 3] ++ goes 0 3 none ++ [.poll 2, .go 2 none none false, .go 2 none (some (3, 1, 9)) false] ++ goes 2 4 none ++
    [.resched 1] ++ goes 1 3 (some 9) ++ [.own 1 true 7]

/-- What comes out of it. (Concerns co_env.cpp:58-548, co_manager.cpp:349-498.) -/
def tickTr : Tr Lk (Loc Nat) :=
  [(0, .wr (.own none 7)), (0, .acq .timers), (0, .wr (.start 3)), (0, .rel .timers), (2, .acq .timers), (2, .wr (.fire 3 9)), (2, .acq (.list 1)),
    (2, .wr (.add 1 9)), (2, .rel (.list 1)), (2, .rel .timers), (1, .acq (.list 1)), (1, .wr (.pick 1 9)), (1, .rel (.list 1)),
    (1, .wr (.own (some 9) 7))]

/-- The callback's write comes after the write of who started the timer. -/
example : ∃ s, runs step St.init tick = some (s, tickTr) ∧ HB tickTr 0 13 :=
  ⟨_, rfl, C126_timer_publishes tick _ _ rfl 2 0 3 rfl 0 _ (by decide) rfl 13 1 9 _ rfl ⟨7, .inr rfl⟩ rfl⟩

end Verif.StartHb
