import Verif.Base.LockHb
import Verif.Sync.RecMutexProps
import Verif.Sync.SharedMutexProps

/-!
# C128: co_recursive_mutex and co_shared_mutex order the accesses of their users

The models of the two mutexes with the lock operations of their internal spinlock made visible, and with clients that access data. The only
synchronisation is that of the spinlock. What C107 has for co_mutex.
-/

namespace Verif.RecMutex

open Verif.Hb Verif.Prog Verif.LockHb

/-- What a client does: a step of the mutex, or an access to `x`. (Concerns co_recursive_mutex.cpp:14-107, co_shared_mutex.cpp:15-218.) -/
inductive HAct (X : Type)
  | lib (a : Act)
  | acc (t : Tid) (write : Bool) (x : X)

/-- The spinlock, the owner, and who has locked more often than unlocked (co_recursive_mutex.h: `spinlock__`, `owner__`). -/
def view : View St := ⟨fun s => s.spin, fun s t _ => s.owner = some t, fun s t _ => 0 < s.depth t⟩

/-- One step. `lib`: a step of the mutex, whoever makes it (co_recursive_mutex.cpp:14-107, `Verif.RecMutex.step`). `acc`: client code, not
in the library; `g x`: the clients access `x` only outside calls and while they have returned from more `lock()`s than they have called
`unlock()`s. -/
def hstep {X : Type} (g : X → Bool) (s : St) : HAct X → Option (St × Tr Unit X)
  | .lib a => (step s a).map fun r => (r.1, spinOps view s r.1)
  | .acc t w x => if g x = true → s.pc t = .out ∧ 0 < s.depth t then some (s, [(t, if w then .wr x else .rd x)]) else none

theorem Inv.good {s : St} (h : Inv s) : Good view s where
  sub c _ hc := h.owner_of_depth hc
  excl a c _ _ ha hc _ := by
    have := h.owner_of_depth (t := c) hc
    simp only [view] at ha
    rw [ha] at this; exact Option.some.inj this

theorem Inv.fair {s s' : St} {a : Act} {es : List LockSpec.Ev} (hi : Inv s) (hs : step s a = some (s', es)) : Fair view s s' := by
  suffices h : (∀ c : Tid, 0 < s'.depth c → 0 < s.depth c ∨ (s.spin = some c ∧ s'.spin = none)) ∧
      (∀ c, s.owner = some c → s'.owner = some c ∨ (s.spin = some c ∧ s'.spin = some c)) ∧
      (∀ c d, s.spin = some c → s'.spin = some d → c = d) from ⟨fun c _ => h.1 c, fun c _ => h.2.1 c, h.2.2⟩
  have hsp := hi.spin
  cases a with
  | callLock t => simp only [step, St.goto] at hs; split at hs <;> cases hs; grind
  | callTry t => simp only [step, St.goto] at hs; split at hs <;> cases hs; grind
  | callUnlock t => simp only [step] at hs; split at hs <;> cases hs; grind
  | run t b =>
    have h1 := hsp t
    simp only [step, runStep] at hs
    cases hp : s.pc t <;> simp only [hp, St.acquire, St.goto, St.take] at hs <;>
      (repeat' split at hs) <;> (try cases hs) <;> simp only [hp, Pc.spin] at h1 <;> grind

theorem hinv {X : Type} (g : X → Bool) (as : List (HAct X)) :
    ∀ (s s' : St) (tr es : Tr Unit X), Inv s → HInv view g s tr → runs (hstep g) s as = some (s', es) → HInv view g s' (tr ++ es) := by
  induction as with
  | nil => intro s s' tr es _ hI h; simp [runs] at h; obtain ⟨rfl, rfl⟩ := h; simpa using hI
  | cons a as ih =>
    intro s s' tr es hi hI h
    obtain ⟨s1, e1, e2, hs, hr, rfl⟩ := runs_cons h
    rw [← List.append_assoc]
    cases a with
    | lib a =>
      simp only [hstep, Option.map_eq_some_iff] at hs
      obtain ⟨⟨s2, es⟩, hst, heq⟩ := hs
      simp only [Prod.mk.injEq] at heq
      obtain ⟨rfl, rfl⟩ := heq
      exact ih _ _ _ _ (inv_step s a s2 es hi hst) (hinv_lib hI hi.good (hi.fair hst)) hr
    | acc t w x =>
      simp only [hstep] at hs
      split at hs <;> cases hs
      rename_i hc
      refine ih _ _ _ _ hi (hinv_acc hI hi.good t w x fun hg => ?_) hr
      obtain ⟨h1, h2⟩ := hc hg
      refine ⟨fun h3 => ?_, h2⟩
      have := (hi.spin t).2 h3
      rw [h1] at this; cases this

/-- **C128 (recursive mutexes order memory).** Data that is accessed only by clients that have returned from more `lock()`s or successful
`try_lock()`s of a co_recursive_mutex than they have called `unlock()`s has no data race, whatever else the clients do: nest locks, unlock
what they do not hold, access other data. -/
theorem C128_recursive_mutex_orders_memory {X : Type} (g : X → Bool) (as : List (HAct X)) (s : St) (tr : Tr Unit X)
    (h : runs (hstep g) St.init as = some (s, tr)) (x : X) (hx : g x = true) : ¬ Race tr x := by
  have hI := hinv g as St.init s [] tr inv_init (hinv_init rfl) h
  simp only [List.nil_append] at hI
  exact hI.no_race x hx

/-- 1 locks twice and unlocks once, and writes: it still holds the mutex; 2 sleeps in the queue meanwhile, gets the mutex with the second
`unlock()`, and writes. -/
example : ∃ s tr, runs (hstep (X := Nat) fun x => x == 7) St.init
    [.lib (.callLock 1), .lib (.run 1 false), .lib (.run 1 false), .lib (.run 1 false), .lib (.callTry 1), .lib (.run 1 false), .lib (.run 1 false),
      .lib (.run 1 false), .lib (.callLock 2), .lib (.run 2 true), .lib (.run 2 true), .lib (.run 2 true), .lib (.run 2 true), .lib (.run 2 true),
      .lib (.run 2 true), .lib (.callUnlock 1), .lib (.run 1 true), .lib (.run 1 true), .lib (.run 1 true), .acc 1 true 7, .lib (.callUnlock 1),
      .lib (.run 1 true), .lib (.run 1 true), .lib (.run 1 true), .lib (.run 2 true), .lib (.run 2 true), .lib (.run 2 true),
      .lib (.run 2 true), .acc 2 true 7] = some (s, tr) ∧
    tr = [(1, .acq ()), (1, .rel ()), (1, .acq ()), (1, .rel ()), (2, .acq ()), (2, .rel ()), (1, .acq ()), (1, .rel ()), (1, .wr 7), (1, .acq ()), (1, .rel ()),
      (2, .acq ()), (2, .rel ()), (2, .wr 7)] :=
  ⟨_, _, rfl, by decide⟩

/-- After the last `unlock()` the access is refused by the rule for clients: the model does not let them read guarded data. -/
example : runs (hstep (X := Nat) fun x => x == 7) St.init
    [.lib (.callLock 1), .lib (.run 1 false), .lib (.run 1 false), .lib (.run 1 false), .lib (.callUnlock 1), .lib (.run 1 true), .lib (.run 1 true),
      .lib (.run 1 true), .acc 1 false 7] = none := rfl

end Verif.RecMutex

namespace Verif.SharedMutex

open Verif.Hb Verif.Prog Verif.LockHb RwSpec

/-- What a client does: a step of the mutex, or an access to `x`. (Concerns co_recursive_mutex.cpp:14-107, co_shared_mutex.cpp:15-218.) -/
inductive HAct (X : Type)
  | lib (a : Act)
  | acc (t : Tid) (write : Bool) (x : X)

/-- The spinlock, the owners and their mode, and who has the mutex by its own record (co_shared_mutex.h: `spinlock__`, `owners__`,
`lock_type__`). -/
def view : View St where
  spin s := s.spin
  own s t w := t ∈ s.owners ∧ (w = true → s.typ = some .unique)
  hold s t w := s.hold t ≠ none ∧ (w = true → s.hold t = some .unique)

/-- One step. `lib`: a step of the mutex, whoever makes it (co_shared_mutex.cpp:15-218, `Verif.SharedMutex.step`). `acc`: client code, not
in the library; `g x`: the clients read `x` only while they hold the mutex and write it only while they hold it exclusively. -/
def hstep {X : Type} (g : X → Bool) (s : St) : HAct X → Option (St × Tr Unit X)
  | .lib a => (step s a).map fun r => (r.1, spinOps view s r.1)
  | .acc t w x =>
    if g x = true → s.pc t = .out ∧ s.hold t ≠ none ∧ (w = true → s.hold t = some .unique) then some (s, [(t, if w then .wr x else .rd x)])
    else none

/-- The calls and steps of the mutex in a schedule. (Concerns co_recursive_mutex.cpp:14-107, co_shared_mutex.cpp:15-218.) -/
def libs {X : Type} (as : List (HAct X)) : List Act := as.filterMap fun | .lib a => some a | .acc _ _ _ => none

theorem Inv.good {s : St} (h : Inv s) : Good view s where
  sub c w := by
    rintro ⟨h1, h2⟩
    obtain ⟨m, hm⟩ := Option.ne_none_iff_exists'.1 h1
    obtain ⟨h3, h4⟩ := loc_hold (h.loc c) hm
    refine ⟨h3, fun hw => ?_⟩
    have := h2 hw
    rw [hm] at this; cases this; exact h4
  excl a c w w' := by
    rintro ⟨h1, h2⟩ ⟨h3, h4⟩ hww
    obtain ⟨m, hm⟩ := Option.ne_none_iff_exists'.1 h3
    obtain ⟨h5, h6⟩ := loc_hold (h.loc c) hm
    have hu : s.typ = some .unique := by
      rcases Bool.or_eq_true _ _ ▸ hww with hw | hw
      · exact h2 hw
      · rw [h4 hw] at hm; cases hm; exact h6
    obtain ⟨v, hv⟩ := h.uniq hu
    rw [hv] at h1 h5
    simp at h1 h5
    rw [h1, h5]

theorem wake_spin (s : St) : s.wake.spin = s.spin ∧ s.wake.hold = s.hold := by
  unfold St.wake; repeat' split
  all_goals exact ⟨rfl, rfl⟩

theorem wake_of_owner {s : St} {c : Tid} (h : c ∈ s.owners) : s.wake = s := by
  unfold St.wake
  split
  · rfl
  · rename_i h0; rw [h0] at h; cases h

theorem Inv.fair {s s' : St} {a : Act} {es : List Ev} (hi : Inv s) (hs : step s a = some (s', es)) : Fair view s s' := by
  suffices h : (∀ c : Tid, s'.hold c ≠ none → s'.hold c = s.hold c ∨ (s.spin = some c ∧ s'.spin = none)) ∧
      (∀ c, c ∈ s.owners → (c ∈ s'.owners ∧ (s.typ = some .unique → s'.typ = some .unique)) ∨ (s.spin = some c ∧ s'.spin = some c)) ∧
      (∀ c d, s.spin = some c → s'.spin = some d → c = d) by
    refine ⟨fun c w hc => ?_, fun c w hc => ?_, h.2.2⟩
    · rcases h.1 c hc.1 with h1 | h1
      · exact .inl (by simp only [view] at hc ⊢; rwa [h1] at hc)
      · exact .inr h1
    · rcases h.2.1 c hc.1 with h1 | h1
      · exact .inl ⟨h1.1, fun hw => h1.2 (hc.2 hw)⟩
      · exact .inr h1
  have hsp := hi.spin
  have hu := hi.uniq
  have hn := hi.typ
  have hins : ∀ (l : List Tid) (t c : Tid), c ∈ l → c ∈ insertOwner l t := by
    intro l t c hc; unfold insertOwner; split <;> simp [hc]
  have hct : ∀ m, s.canTake m = true → s.typ = some .unique → m = .unique := by
    intro m h1 h2; cases m <;> simp_all [St.canTake]
  cases a with
  | callLock m t => simp only [step, St.goto] at hs; split at hs <;> cases hs; grind
  | callTry m t => simp only [step, St.goto] at hs; split at hs <;> cases hs; grind
  | callUnlock m t => simp only [step] at hs; split at hs <;> cases hs; grind
  | run t b =>
    have h1 := hsp t
    simp only [step, runStep] at hs
    cases hp : s.pc t <;> simp only [hp, St.acquire, St.goto, St.take] at hs
    case ulTest m h =>
      simp only [hp, Pc.spin, true_iff] at h1
      split at hs <;> cases hs
      · grind
      · have hw := wake_spin { s with owners := s.owners.erase t }
        refine ⟨fun c hc => .inl (by simp [hw.2]), fun c hc => ?_, fun c d hc hd => ?_⟩
        · by_cases hct : c = t
          · subst hct; exact .inr ⟨h1, hw.1.trans h1⟩
          · have hmem : c ∈ s.owners.erase t := (List.mem_erase_of_ne hct).2 hc
            have := wake_of_owner (s := { s with owners := s.owners.erase t }) hmem
            simp only [this]
            exact .inl ⟨hmem, id⟩
        · simp only [hw.1] at hd; rw [hc] at hd; exact Option.some.inj hd
    all_goals
      (repeat' split at hs) <;> (try cases hs) <;> simp only [hp, Pc.spin] at h1 <;> grind

/-- The mutex does not notice the accesses. -/
theorem runs_libs {X : Type} {g : X → Bool} (as : List (HAct X)) : ∀ (s s' : St) (tr : Tr Unit X), runs (hstep g) s as = some (s', tr) →
    ∃ es, runs step s (libs as) = some (s', es) := by
  induction as with
  | nil => intro s s' tr h; simp [runs] at h; obtain ⟨rfl, rfl⟩ := h; exact ⟨_, rfl⟩
  | cons a as ih =>
    intro s s' tr h
    obtain ⟨s1, e1, e2, hs, hr, rfl⟩ := runs_cons h
    obtain ⟨es, he⟩ := ih _ _ _ hr
    cases a with
    | lib a =>
      simp only [hstep, Option.map_eq_some_iff] at hs
      obtain ⟨⟨s2, es2⟩, hst, heq⟩ := hs
      simp only [Prod.mk.injEq] at heq
      obtain ⟨rfl, rfl⟩ := heq
      exact ⟨es2 ++ es, by simp [libs, runs, hst]; simp only [libs] at he; simp [he]⟩
    | acc t w x =>
      simp only [hstep] at hs
      split at hs <;> cases hs
      exact ⟨es, by simpa [libs] using he⟩

theorem runs_last {S A E : Type} {step : S → A → Option (S × List E)} (as : List A) : ∀ (a : A) (s s' : S) (es : List E),
    runs step s (as ++ [a]) = some (s', es) → ∃ s1 e1 e2, runs step s as = some (s1, e1) ∧ step s1 a = some (s', e2) ∧ es = e1 ++ e2 := by
  induction as with
  | nil =>
    intro a s s' es h
    obtain ⟨s1, e1, e2, hs, hr, rfl⟩ := runs_cons h
    simp only [runs, Option.some.injEq, Prod.mk.injEq] at hr
    obtain ⟨rfl, rfl⟩ := hr
    exact ⟨s, [], e1, rfl, hs, by simp⟩
  | cons b as ih =>
    intro a s s' es h
    obtain ⟨s1, e1, e2, hs, hr, rfl⟩ := runs_cons h
    obtain ⟨s2, f1, f2, hx, hy, rfl⟩ := ih _ _ _ _ hr
    exact ⟨s2, e1 ++ f1, f2, by simp [runs, hs, hx], hy, by simp⟩

theorem hinv {X : Type} (g : X → Bool) (as : List (HAct X)) : ∀ (s' : St) (tr : Tr Unit X), NoMixedWake (libs as) →
    runs (hstep g) St.init as = some (s', tr) → HInv view g s' tr := by
  induction as using list_snoc with
  | nil => intro s' tr _ h; simp [runs] at h; obtain ⟨rfl, rfl⟩ := h; exact hinv_init rfl
  | snoc as a ih =>
    intro s' tr hm h
    obtain ⟨s1, e1, f1, h1, hs, rfl⟩ := runs_last as _ _ _ _ h
    have hm' : NoMixedWake (libs as) := by
      intro pre b post s2 f2 he
      refine hm pre b (post ++ libs [a]) s2 f2 ?_
      simp only [libs, List.filterMap_append] at he ⊢
      rw [he]; simp
    have hI := ih s1 e1 hm' h1
    obtain ⟨es, he⟩ := runs_libs as _ _ _ h1
    obtain ⟨q, _, hR⟩ := hm'.sim he
    have hi := hR.inv
    cases a with
    | lib a =>
      simp only [hstep, Option.map_eq_some_iff] at hs
      obtain ⟨⟨s2, es2⟩, hst, heq⟩ := hs
      simp only [Prod.mk.injEq] at heq
      obtain ⟨rfl, rfl⟩ := heq
      exact hinv_lib hI hi.good (hi.fair hst)
    | acc t w x =>
      simp only [hstep] at hs
      split at hs <;> cases hs
      rename_i hc
      refine hinv_acc hI hi.good t w x fun hg => ?_
      obtain ⟨h1, h2⟩ := hc hg
      refine ⟨fun h3 => ?_, h2⟩
      have := (hi.spin t).2 h3
      rw [h1] at this; cases this

/-- **C128 (shared mutexes order memory), what holds.** Data that is read only by holders of a co_shared_mutex and written only by exclusive
holders has no data race in any execution in which no wake-up sees a queue that starts with a reader and contains a writer. -/
theorem C128_shared_mutex_orders_memory_partial {X : Type} (g : X → Bool) (as : List (HAct X)) (s : St) (tr : Tr Unit X)
    (h : runs (hstep g) St.init as = some (s, tr)) (hm : NoMixedWake (libs as)) (x : X) (hx : g x = true) : ¬ Race tr x :=
  (hinv g as s tr hm h).no_race x hx

/-- In particular if only readers block (writers use `try_lock()`), or only writers (readers use `try_lock_shared()`). -/
theorem C128_one_kind_blocks_partial {X : Type} (g : X → Bool) (as : List (HAct X)) (s : St) (tr : Tr Unit X)
    (h : runs (hstep g) St.init as = some (s, tr)) (m : Mode) (hm : ∀ t, .lib (.callLock m t) ∉ as) (x : X) (hx : g x = true) : ¬ Race tr x := by
  refine C128_shared_mutex_orders_memory_partial g as s tr h (no_mixed_of_unused _ m fun t ht => hm t ?_) x hx
  simp only [libs, List.mem_filterMap] at ht
  obtain ⟨a, ha, hb⟩ := ht
  cases a <;> simp at hb
  subst hb; exact ha

/-- A schedule of the mutex without accesses. (Concerns co_recursive_mutex.cpp:14-107, co_shared_mutex.cpp:15-218.) -/
def lift (as : List Act) : List (HAct Nat) := as.map .lib

/-- Two readers next to each other, then a writer that slept in the queue, then a reader that slept: four accesses, conflicting ones among
them, and no wake-up that goes wrong. -/
example : ∃ s tr, runs (hstep (X := Nat) fun x => x == 7) St.init
    (lift (take .shared 0 ++ take .shared 4) ++ [.acc 0 false 7, .acc 4 false 7] ++ lift (block .unique 1 ++ release .shared 0 ++ release .shared 4 ++ resume 1) ++
      [.acc 1 true 7] ++ lift (block .shared 2 ++ release .unique 1 ++ resume 2) ++ [.acc 2 false 7]) = some (s, tr) ∧
    (tr.filter fun e => e.2 == .rd 7 || e.2 == .wr 7) = [(0, .rd 7), (4, .rd 7), (1, .wr 7), (2, .rd 7)] :=
  ⟨_, _, rfl, by decide⟩

/-- The trace of `C128_shared_mutex_race`. (Concerns co_recursive_mutex.cpp:14-107, co_shared_mutex.cpp:15-218.) -/
def racing : List (HAct Nat) := lift mixed ++ [.acc 2 true 7, .acc 3 false 7]

/-- **C128 fails** of the code in general: with a reader and a writer queued, the release of the mutex lets the writer in in shared mode; a
reader gets in next to it, and its read races with the write, though both keep to the rules. -/
theorem C128_shared_mutex_race : ∃ s tr, runs (hstep (X := Nat) fun x => x == 7) St.init racing = some (s, tr) ∧ Race tr 7 := by
  obtain ⟨s, tr, h, hl, h1, h2⟩ : ∃ s tr, runs (hstep (X := Nat) fun x => x == 7) St.init racing = some (s, tr) ∧ tr.length = 14 ∧
      tr[12]? = some (2, .wr 7) ∧ tr[13]? = some (3, .rd 7) := ⟨_, _, rfl, by decide, by decide, by decide⟩
  refine ⟨s, tr, h, 12, 13, 2, 3, .wr 7, .rd 7, by omega, h1, h2, by decide, .inr rfl, .inl rfl, .inl rfl, ?_⟩
  refine not_hb (fun i => i = 12) ?_ rfl (by decide)
  intro i j a p b q hi hij ha hb hor
  subst hi
  have hj : j < tr.length := (List.getElem?_eq_some_iff.1 hb).1
  have : j = 13 := by omega
  subst this
  rw [h1] at ha; rw [h2] at hb
  cases ha; cases hb
  rcases hor with h | ⟨l, h, _⟩ <;> cases h

end Verif.SharedMutex
