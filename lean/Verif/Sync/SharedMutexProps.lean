import Verif.Sync.SharedMutexSim

/-!
# Properties of co_shared_mutex (C11 – C14)

C11 – C13 and part of C14 are false of the code: `wake_up_waiters__` uses the elements after the
position that `std::remove_if` returned as if they were the removed ones. The theorems give the
failing executions, say exactly for which queues waking goes wrong (C12), and show that this is the only
cause (`…_partial`): executions in which no wake-up sees a mixed queue are correct.
-/

namespace Verif.SharedMutex
open RwSpec

/-- Block `t` in `lock()`/`lock_shared()`: run out of spin time, queue, sleep. (Concerns co_shared_mutex.cpp:15-218.) -/
def block (m : Mode) (t : Tid) : List Act :=
  [.callLock m t, .run t false, .run t false, .run t true, .run t false, .run t false, .run t false]

/-- A complete uncontended try version, an uncontended unlock, and what a woken coroutine does. (Concerns co_shared_mutex.cpp:15-218.) -/
def take (m : Mode) (t : Tid) : List Act := [.callTry m t, .run t false, .run t false, .run t false]
/-- Example schedule, no counterpart in the code. (Concerns co_shared_mutex.cpp:15-218.) -/
def release (m : Mode) (t : Tid) : List Act :=
  [.callUnlock m t, .run t false, .run t false, .run t false]
/-- Example schedule, no counterpart in the code. (Concerns co_shared_mutex.cpp:15-218.) -/
def resume (t : Tid) : List Act := [.run t false, .run t false, .run t false, .run t false]

/-- 0 holds the mutex exclusively, reader 1 and writer 2 queue, 0 releases, 2 is woken and returns from
`lock()`, and reader 3 gets in as well. (Concerns co_shared_mutex.cpp:15-218.) -/
def mixed : List Act :=
  take .unique 0 ++ block .shared 1 ++ block .unique 2 ++ release .unique 0 ++ resume 2 ++ take .shared 3

/-- Readers only, and a writer queued behind a reader that holds the mutex: nothing goes wrong. (Concerns co_shared_mutex.cpp:15-218.) -/
def fine : List Act :=
  take .shared 0 ++ block .unique 1 ++ release .shared 0 ++ block .shared 2 ++ block .shared 3 ++
    resume 1 ++ release .unique 1 ++ resume 2 ++ resume 3

/-- C11 is false: with a reader and a writer queued, a release lets the writer in in shared mode, so
that another reader can enter next to it. -/
theorem C11_rw_exclusion_fails :
    ∃ as s es, runs step St.init as = some (s, es) ∧ ¬ Correct es ∧
      s.hold 2 = some .unique ∧ s.hold 3 = some .shared := by
  refine ⟨mixed, _, _, rfl, ?_, rfl, rfl⟩
  rintro ⟨q, h⟩
  simp [accepts, acc, Q.init] at h

/-- C11, what does hold: executions in which no wake-up sees a queue that starts with a reader and
contains a writer are correct; one writer and nobody else, or only readers. -/
theorem C11_rw_exclusion_partial (as : List Act) (s : St) (es : List Ev)
    (h : runs step St.init as = some (s, es)) (hm : NoMixedWake as) : Correct es := by
  obtain ⟨q, hq, _⟩ := hm.sim h
  exact ⟨q, hq⟩

/-- C11, states. -/
theorem C11_rw_exclusion_states_partial (as : List Act) (s : St) (es : List Ev)
    (h : runs step St.init as = some (s, es)) (hm : NoMixedWake as) (t u : Tid)
    (ht : s.hold t = some .unique) (hu : s.hold u ≠ none) : u = t := by
  obtain ⟨q, hq, hR⟩ := hm.sim h
  obtain ⟨h1, h2⟩ := loc_hold (hR.inv.loc t) ht
  obtain ⟨v, hv⟩ := hR.inv.uniq h2
  cases hhu : s.hold u with
  | none => exact absurd hhu hu
  | some m =>
    have h3 := (loc_hold (hR.inv.loc u) hhu).1
    rw [hv] at h1 h3
    simp at h1 h3
    rw [h1, h3]

/-- Nobody waits in mode `m`. (Concerns co_shared_mutex.cpp:15-218.) -/
def Unused (m : Mode) (s : St) : Prop :=
  (∀ t, (m, t) ∉ s.queue) ∧ ∀ t,
    s.pc t ≠ .lkAcq m ∧ s.pc t ≠ .lkFast m ∧ s.pc t ≠ .lkSpin m ∧ s.pc t ≠ .lkYield m ∧
    s.pc t ≠ .lkReacq m ∧ s.pc t ≠ .lkCheck m

theorem unused_step (m : Mode) (s : St) (a : Act) (s' : St) (es : List Ev) (h : Unused m s)
    (ha : ∀ t, a ≠ .callLock m t) (hs : step s a = some (s', es)) : Unused m s' := by
  obtain ⟨hq, hp⟩ := h
  cases a with
  | callLock m' t | callTry m' t | callUnlock m' t =>
    simp only [step, St.goto] at hs
    split at hs <;> cases hs
    refine ⟨hq, fun u => ?_⟩
    have := hp u
    by_cases hu : u = t
    · subst hu; simp; try (intro h; exact absurd rfl (h ▸ ha u))
    · simpa [hu] using this
  | run t b =>
    have hpt := hp t
    simp only [step, runStep] at hs
    cases hpc : s.pc t <;> simp only [hpc, St.acquire, St.goto, St.take] at hs hpt <;>
      (repeat' split at hs) <;> (try cases hs) <;>
      refine ⟨?_, fun u => ?_⟩
    all_goals first
      | exact hq
      | (intro u hmem; have := (wake_sub _).1 _ hmem; exact hq u this)
      | (simp only [List.mem_append, List.mem_singleton]; grind)
      | (have := hp u
         by_cases hu : u = t
         · subst hu; simp; try grind
         · simpa [hu, wake_pc] using this)

theorem no_mixed_of_unused (as : List Act) (m : Mode) (ha : ∀ t, .callLock m t ∉ as) :
    NoMixedWake as := by
  intro pre a post s1 e1 he hr
  have key : ∀ (l : List Act) (s0 s : St) (es : List Ev), (∀ t, .callLock m t ∉ l) → Unused m s0 →
      runs step s0 l = some (s, es) → Unused m s := by
    intro l
    induction l with
    | nil =>
      intro s0 s es _ h0 h
      simp only [runs, Option.some.injEq, Prod.mk.injEq] at h
      exact h.1 ▸ h0
    | cons b l ih =>
      intro s0 s es hl h0 h
      obtain ⟨s2, f1, f2, h1, h2, -⟩ := runs_cons h
      exact ih s2 s f2 (fun t ht => hl t (by simp [ht]))
        (unused_step m s0 b s2 f1 h0 (fun t e => hl t (by simp [e])) h1) h2
  have hu := key pre St.init s1 e1 (fun t ht => ha t (by simp [he, ht]))
    ⟨by simp [St.init], by simp [St.init]⟩ hr
  cases a with
  | run t b =>
    rintro ⟨m', h, -, -, -, ⟨u, rest, hq⟩, w, hw⟩
    cases m with
    | unique => exact hu.1 w hw
    | shared => exact hu.1 u (by simp [hq])
  | _ => exact id

/-- C11: clients that never block in `lock()` (readers block, writers only use `try_lock()`) get a
correct reader-writer lock … -/
theorem C11_only_readers_block_partial (as : List Act) (s : St) (es : List Ev)
    (h : runs step St.init as = some (s, es)) (ha : ∀ t, .callLock .unique t ∉ as) : Correct es :=
  C11_rw_exclusion_partial as s es h (no_mixed_of_unused as _ ha)

/-- … and so do clients that never block in `lock_shared()`. -/
theorem C11_only_writers_block_partial (as : List Act) (s : St) (es : List Ev)
    (h : runs step St.init as = some (s, es)) (ha : ∀ t, .callLock .shared t ∉ as) : Correct es :=
  C11_rw_exclusion_partial as s es h (no_mixed_of_unused as _ ha)

example : ∃ s es, runs step St.init (take .unique 0 ++ block .shared 1 ++ block .shared 2 ++
    release .unique 0 ++ resume 2 ++ take .shared 3 ++ resume 1) = some (s, es) ∧
    s.hold 1 = some .shared ∧ s.hold 2 = some .shared ∧ s.hold 3 = some .shared :=
  ⟨_, _, rfl, rfl, rfl, rfl⟩

example : ∃ s es, runs step St.init fine = some (s, es) ∧
    s.hold 1 = none ∧ s.hold 2 = some .shared ∧ s.hold 3 = some .shared :=
  ⟨_, _, rfl, rfl, rfl, rfl⟩

/-- Who must be let in, and who stays queued, when the mutex becomes free with this queue. (Concerns co_shared_mutex.cpp:15-218.) -/
def mustEnter : List (Mode × Tid) → List Tid
  | [] => []
  | (.unique, u) :: _ => [u]
  | (.shared, u) :: rest => (((.shared, u) :: rest).filter (fun e => e.1 == .shared)).map Prod.snd

/-- See `mustEnter`. (Concerns co_shared_mutex.cpp:15-218.) -/
def mustStay : List (Mode × Tid) → List (Mode × Tid)
  | [] => []
  | (.unique, _) :: rest => rest
  | (.shared, u) :: rest => ((.shared, u) :: rest).filter (fun e => e.1 == .unique)

/-- Waking did what it should: exactly the right coroutines own the mutex and were woken, the others stay
queued in order. (Concerns co_shared_mutex.cpp:15-218.) -/
def WokeRight (s s' : St) : Prop :=
  (∀ u, u ∈ s'.owners ↔ u ∈ mustEnter s.queue) ∧ s'.queue = mustStay s.queue ∧
  (∀ u, s'.asleep u = if u ∈ mustEnter s.queue then false else s.asleep u) ∧
  s'.typ = (s.queue.head?).map Prod.fst

/-- Pigeonhole: too few readers are left after the first to fill the places. -/
theorem writer_in_tail (q : List (Mode × Tid)) (u : Tid) (rest : List (Mode × Tid))
    (hq : q = (.shared, u) :: rest) (hw : ∃ e ∈ q, e.1 = .unique) :
    ∃ w, (.unique, w) ∈ q.drop (q.filter (fun e => !isShared e)).length := by
  apply Classical.byContradiction
  intro hno
  have hk : 1 ≤ (q.filter (fun e => !isShared e)).length := by
    obtain ⟨e, he, hm⟩ := hw
    exact List.length_pos_of_mem (List.mem_filter.2 ⟨he, by simp [isShared, hm]⟩)
  have hall : ∀ e ∈ q.drop (q.filter (fun e => !isShared e)).length, isShared e = true := by
    rintro ⟨m, w⟩ he
    cases m with
    | shared => rfl
    | unique => exact absurd ⟨w, he⟩ hno
  have h1 : (q.drop (q.filter (fun e => !isShared e)).length).countP isShared =
      (q.drop (q.filter (fun e => !isShared e)).length).length := List.countP_eq_length.2 hall
  have hlen : q.length = q.countP isShared + (q.filter (fun e => !isShared e)).length := by
    rw [← List.countP_eq_length_filter]
    have := List.length_eq_countP_add_countP (p := isShared) (l := q)
    simpa using this
  have h2 : (q.drop (q.filter (fun e => !isShared e)).length).Sublist rest := by
    rw [hq] at hk ⊢
    obtain ⟨k, hk'⟩ : ∃ k, (((Mode.shared, u) :: rest).filter (fun e => !isShared e)).length = k + 1 :=
      ⟨_, (Nat.succ_pred_eq_of_pos hk).symm⟩
    rw [hk', List.drop_succ_cons]
    exact List.drop_sublist _ _
  have h3 := h2.countP_le (p := isShared)
  have h4 : q.countP isShared = rest.countP isShared + 1 := by rw [hq]; simp [isShared]
  rw [List.length_drop] at h1
  omega

theorem nodup_map_inj {l : List (Mode × Tid)} (h : (l.map Prod.snd).Nodup) {a b : Mode × Tid}
    (ha : a ∈ l) (hb : b ∈ l) (hab : a.2 = b.2) : a = b := by
  induction l with
  | nil => simp at ha
  | cons c l ih =>
    simp only [List.map_cons, List.nodup_cons] at h
    simp only [List.mem_cons] at ha hb
    rcases ha with rfl | ha <;> rcases hb with rfl | hb
    · rfl
    · exact absurd (hab ▸ List.mem_map_of_mem (f := Prod.snd) hb) h.1
    · exact absurd (hab ▸ List.mem_map_of_mem (f := Prod.snd) ha) h.1
    · exact ih h.2 ha hb

/-- C12 is false, exactly for these queues: waking does what it should if and only if it is not the
case that the first waiter is a reader and some waiter is a writer. For all queues of any length and
mix (coroutines queue at most once). -/
theorem C12_wake_right_iff (s : St) (ho : s.owners = []) (hn : (s.queue.map Prod.snd).Nodup) :
    WokeRight s s.wake ↔
      ¬ ((∃ u rest, s.queue = (.shared, u) :: rest) ∧ ∃ w, (.unique, w) ∈ s.queue) := by
  constructor
  · rintro ⟨h1, -, -, -⟩ ⟨⟨u, rest, hq⟩, w, hw⟩
    obtain ⟨w', hw'⟩ := writer_in_tail s.queue u rest hq ⟨_, hw, rfl⟩
    have hin : w' ∈ s.wake.owners := by
      rw [wake_reader_front s u rest ho hq]
      simp only [mem_foldl_insertOwner]
      exact Or.inr (List.mem_map_of_mem (f := Prod.snd) hw')
    rw [h1, hq] at hin
    simp only [mustEnter] at hin
    rw [← hq] at hin
    obtain ⟨e, he, hew⟩ := List.mem_map.1 hin
    obtain ⟨he1, he2⟩ := List.mem_filter.1 he
    have hmem := List.mem_of_mem_drop hw'
    have : e = (.unique, w') := nodup_map_inj hn he1 hmem hew
    rw [this] at he2
    simp at he2
  · intro hno
    rcases wake_cases s (fun u rest hq _ e he => by
        cases hm : e.1 with
        | shared => rfl
        | unique => exact absurd ⟨⟨u, rest, hq⟩, e.2, by rw [← hm]; exact he⟩ hno)
      with ⟨h, _⟩ | ⟨_, hq, hw⟩ | ⟨v, rest, _, hq, hw⟩ | ⟨_, hq, hsh, hw⟩
    · exact absurd ho h
    · rw [hw]; simp [WokeRight, hq, mustEnter, mustStay, ho]
    · rw [hw]
      simp [WokeRight, hq, mustEnter, mustStay]
      intro u; by_cases hu : u = v <;> simp [hu]
    · rw [hw]
      cases hqq : s.queue with
      | nil => exact absurd hqq hq
      | cons e rest =>
        obtain ⟨m, u⟩ := e
        have hm : m = .shared := hsh (m, u) (by simp [hqq])
        subst hm
        have hf : s.queue.filter (fun e => e.1 == .shared) = s.queue := by
          rw [List.filter_eq_self]; intro e he; simp [hsh e he]
        have hf2 : s.queue.filter (fun e => e.1 == .unique) = [] := by
          rw [List.filter_eq_nil_iff]; intro e he; simp [hsh e he]
        simp only [WokeRight, hqq, mustEnter, mustStay]
        rw [← hqq, hf, hf2]
        refine ⟨fun v => ?_, rfl, fun v => ?_, by simp [hqq]⟩
        · simp [mem_foldl_insertOwner]
        · simp only [foldl_upd_false]

/-- Both cases occur. -/
example : (∃ s : St, s.owners = [] ∧ s.queue = [(.shared, 1), (.shared, 2)] ∧
      s.asleep 1 = true ∧ s.asleep 2 = true) ∧
    (∃ s : St, s.owners = [] ∧ s.queue = [(.shared, 1), (.unique, 2), (.shared, 3)]) :=
  ⟨⟨⟨none, none, [(.shared, 1), (.shared, 2)], [], fun _ => true, fun _ => .out, fun _ => none⟩,
    rfl, rfl, rfl, rfl⟩,
   ⟨⟨none, none, [(.shared, 1), (.unique, 2), (.shared, 3)], [], fun _ => true, fun _ => .out,
    fun _ => none⟩, rfl, rfl⟩⟩

/-- C12, what goes wrong on every such queue: the reader that was first is neither let in nor kept in
the queue nor woken, and some writer is let in in shared mode although it also stays queued. -/
theorem C12_mixed_wake_outcome (s : St) (ho : s.owners = []) (hn : (s.queue.map Prod.snd).Nodup)
    (u : Tid) (rest : List (Mode × Tid)) (hq : s.queue = (.shared, u) :: rest)
    (hw : ∃ w, (.unique, w) ∈ s.queue) :
    (u ∉ s.wake.owners ∧ (∀ m, (m, u) ∉ s.wake.queue) ∧ s.wake.asleep u = s.asleep u) ∧
    ∃ w, (.unique, w) ∈ s.queue ∧ w ∈ s.wake.owners ∧ s.wake.typ = some .shared ∧
      (.unique, w) ∈ s.wake.queue := by
  obtain ⟨w0, hw0⟩ := hw
  obtain ⟨w, hw'⟩ := writer_in_tail s.queue u rest hq ⟨_, hw0, rfl⟩
  have hwq := List.mem_of_mem_drop hw'
  have hnu : u ∉ rest.map Prod.snd := by
    rw [hq] at hn; simp only [List.map_cons, List.nodup_cons] at hn; exact hn.1
  have hnd : u ∉ (s.queue.drop (s.queue.filter (fun e => !isShared e)).length).map Prod.snd := by
    intro hmem
    obtain ⟨e, he, rfl⟩ := List.mem_map.1 hmem
    obtain ⟨k, hk⟩ : ∃ k, (s.queue.filter (fun e => !isShared e)).length = k + 1 :=
      ⟨_, (Nat.succ_pred_eq_of_pos (List.length_pos_of_mem
        (List.mem_filter.2 ⟨hw0, by simp [isShared]⟩))).symm⟩
    rw [hk, hq, List.drop_succ_cons] at he
    exact hnu (List.mem_map_of_mem (f := Prod.snd) (List.mem_of_mem_drop he))
  rw [wake_reader_front s u rest ho hq]
  refine ⟨⟨?_, fun m hmem => ?_, ?_⟩, w, hwq, ?_, rfl, ?_⟩
  · simp only [mem_foldl_insertOwner]; simpa using hnd
  · obtain ⟨h1, h2⟩ := List.mem_filter.1 hmem
    have : (m, u) = (.shared, u) :=
      nodup_map_inj hn h1 (by simp [hq]) rfl
    cases this
    simp [isShared] at h2
  · simp only [foldl_upd_false, hnd, if_false]
  · simp only [mem_foldl_insertOwner]
    exact Or.inr (List.mem_map_of_mem (f := Prod.snd) hw')
  · exact List.mem_filter.2 ⟨hwq, by simp [isShared]⟩

/-- A coroutine is forgotten: asleep inside its call and in no queue. (Concerns co_shared_mutex.cpp:15-218.) -/
def Forgotten (s : St) (t : Tid) : Prop :=
  (∃ m, s.pc t = .lkParked m) ∧ s.asleep t = true ∧ t ∉ s.queue.map Prod.snd ∧ t ∉ s.owners

theorem forgotten_step (t : Tid) (s : St) (a : Act) (s' : St) (es : List Ev) (h : Forgotten s t)
    (hs : step s a = some (s', es)) : Forgotten s' t := by
  obtain ⟨⟨m, hp⟩, ha, hq, ho⟩ := h
  cases a with
  | callLock m' u | callTry m' u | callUnlock m' u =>
    simp only [step, St.goto] at hs
    split at hs <;> cases hs
    have : t ≠ u := by grind
    exact ⟨⟨m, by simp [this, hp]⟩, ha, hq, ho⟩
  | run u b =>
    by_cases hu : t = u
    · subst hu; simp [step, runStep, hp, ha] at hs
    · simp only [step, runStep] at hs
      cases hpc : s.pc u
      case ulTest mm h' =>
        simp only [hpc, St.goto] at hs
        split at hs <;> cases hs
        · exact ⟨⟨m, by simp [hu, hp]⟩, ha, hq, ho⟩
        · have hw := wake_sub { s with owners := s.owners.erase u }
          refine ⟨⟨m, by simp [hu, hp, wake_pc]⟩, ?_, ?_, ?_⟩
          · rw [(hw.2 t hq).1]; exact ha
          · intro hmem
            obtain ⟨e, he, rfl⟩ := List.mem_map.1 hmem
            exact hq (List.mem_map_of_mem (f := Prod.snd) (hw.1 e he))
          · intro hmem
            exact ho (List.mem_of_mem_erase ((hw.2 t hq).2 hmem))
      all_goals
        simp only [hpc, St.acquire, St.goto, St.take] at hs
        (repeat' split at hs) <;> (try cases hs)
        all_goals
          refine ⟨⟨m, by simp [hu, hp]⟩, by simp [hu, ha], ?_, ?_⟩
          · first
              | exact hq
              | (simp only [List.map_append, List.mem_append]; simp [hu] at hq ⊢; exact hq)
          · first | exact ho | (simp [mem_insertOwner, hu, ho])

/-- C13 is false: there is an execution after which reader 1 is asleep inside `lock_shared()` and is
forgotten: whatever happens afterwards, it sleeps for ever. -/
theorem C13_reader_stranded :
    ∃ as s es, runs step St.init as = some (s, es) ∧ Forgotten s 1 ∧
      ∀ bs s' fs, runs step s bs = some (s', fs) → Forgotten s' 1 := by
  refine ⟨mixed, _, _, rfl, ⟨⟨_, rfl⟩, rfl, by decide, by decide⟩, ?_⟩
  intro bs s' fs hr
  exact runs_inv (fun s => Forgotten s 1) (fun s a s' es h hs => forgotten_step 1 s a s' es h hs)
    bs _ s' fs ⟨⟨_, rfl⟩, rfl, by decide, by decide⟩ hr

/-- C13, what does hold in executions without a mixed wake-up: every sleeping coroutine is queued and
the mutex is owned, and a free mutex has an empty queue. -/
theorem C13_never_strands_partial (as : List Act) (s : St) (es : List Ev)
    (h : runs step St.init as = some (s, es)) (hm : NoMixedWake as) :
    (∀ t, s.asleep t = true → t ∈ s.queue.map Prod.snd ∧ s.owners ≠ []) ∧
    (s.owners = [] → s.queue = [] ∧ ∀ t, s.asleep t = false) := by
  obtain ⟨q, hq, hR⟩ := hm.sim h
  have hI := hR.inv
  have key : ∀ t, s.asleep t = true → ∃ m, (m, t) ∈ s.queue := by
    intro t ht
    have := hI.loc t
    simp only [Loc] at this
    cases hp : s.pc t <;> simp only [hp] at this
    case lkSleep m => exact ⟨m, (this.2.1 m).2 rfl⟩
    case lkParked m => exact ⟨m, (this.2.1 m).2 ⟨rfl, this.2.2.2.1 ht⟩⟩
    all_goals grind
  refine ⟨fun t ht => ?_, fun ho => ⟨hI.free ho, fun t => ?_⟩⟩
  · obtain ⟨m, hmem⟩ := key t ht
    refine ⟨List.mem_map_of_mem (f := Prod.snd) hmem, fun ho => ?_⟩
    rw [hI.free ho] at hmem; simp at hmem
  · have := hI.free ho
    have := key t
    grind

/-- C13, no deadlock: in such an execution, if no coroutine inside a call can make a step, everybody
inside a call is queued behind a client that holds the mutex. -/
theorem C13_stuck_only_behind_holder_partial (as : List Act) (s : St) (es : List Ev)
    (h : runs step St.init as = some (s, es)) (hm : NoMixedWake as)
    (hstuck : ∀ t b, step s (.run t b) = none) (t : Tid) (ht : s.pc t ≠ .out) :
    t ∈ s.queue.map Prod.snd ∧ ∃ u, u ∈ s.owners ∧ s.hold u ≠ none ∧ s.pc u = .out := by
  obtain ⟨q, hq, hR⟩ := hm.sim h
  obtain ⟨m, _, h2, h3⟩ := stuck s hR.inv hstuck t ht
  exact ⟨List.mem_map_of_mem (f := Prod.snd) h2, h3⟩

/-- C13, termination: without new calls and without a mixed wake-up, the coroutines `L` inside calls
make at most `10 · |L|` steps, plus three for every look at the clock before the spin time is over. -/
theorem C13_calls_terminate_partial (as : List Act) (s : St) (es : List Ev)
    (h : runs step St.init as = some (s, es)) (hm : NoMixedWake as) (L : List Tid) (hn : L.Nodup)
    (hL : ∀ u, u ∉ L → s.pc u = .out) (c : Sched) (s' : St) (es' : List Ev)
    (hr : runs step s c.acts = some (s', es')) (hm' : NoMixedWake (as ++ c.acts)) :
    c.length ≤ 10 * L.length + 3 * c.spins := by
  obtain ⟨q, hq, hR⟩ := hm.sim h
  have hb := bounded L hn c s s' es' hR.inv (fun pre a post s1 e1 he hp =>
    hm' (as ++ pre) a post s1 (es ++ e1) (by simp [he]) (runs_append h hp)) hL hr
  have : sumOver L (rank s) ≤ 10 * L.length := by
    have := sumOver_le (L := L) (f := rank s) (g := fun _ => 10) (fun u _ => rank_le s u)
    rw [sumOver_const] at this
    omega
  omega

/-- A case with sleeping writers and `NoMixedWake`. -/
example : (∃ s es, runs step St.init (take .shared 0 ++ block .unique 1 ++ block .unique 2) =
      some (s, es) ∧ s.asleep 1 = true ∧ s.asleep 2 = true) ∧
    NoMixedWake (take .shared 0 ++ block .unique 1 ++ block .unique 2) :=
  ⟨⟨_, _, rfl, rfl, rfl⟩, no_mixed_of_unused _ .shared (by simp [take, block])⟩

/-- C14, part: when an unlock inspects the mutex it throws exactly if the mutex is not held in that
mode or its caller is not registered as owner, and then nothing changes. In all states. -/
theorem C14_unlock_checked (s : St) (t : Tid) (m : Mode) (h b : Bool) (hp : s.pc t = .ulTest m h)
    (s' : St) (es : List Ev) (hs : step s (.run t b) = some (s', es)) :
    (s'.pc t = .ulRet m false ↔ s.typ ≠ some m ∨ t ∉ s.owners) ∧
    (s'.pc t ≠ .ulRet m false → s'.pc t = .ulRet m true) ∧
    (s'.pc t = .ulRet m false →
      s'.owners = s.owners ∧ s'.typ = s.typ ∧ s'.queue = s.queue ∧ s'.asleep = s.asleep) := by
  simp only [step, runStep, hp] at hs
  split at hs <;> cases hs
  · simp_all [St.goto]
  · rename_i hc
    simp only [St.goto, upd_same]
    grind

/-- C14, full, for executions without a mixed wake-up: such an unlock throws exactly if its caller did
not hold the mutex in that mode when it called (`h` is the client's own record). -/
theorem C14_unlock_exact_partial (as : List Act) (s : St) (es : List Ev)
    (hr : runs step St.init as = some (s, es)) (hm : NoMixedWake as) (t : Tid) (m : Mode) (h : Bool)
    (hp : s.pc t = .ulTest m h) : (s.typ = some m ∧ t ∈ s.owners) ↔ h = true := by
  obtain ⟨q, hq, hR⟩ := hm.sim hr
  have hl := hR.inv.loc t
  simp only [Loc, hp] at hl
  cases h with
  | true => simp [hl.1 rfl]
  | false =>
    obtain ⟨h1, h2, h3⟩ := hl.2.1 rfl
    simp only [Bool.false_eq_true, iff_false]
    rintro ⟨h4, h5⟩
    cases hho : s.hold t with
    | none => grind
    | some m' => have := h2 m' hho; grind

/-- C14 is false after a mixed wake-up: writer 2 has returned from `lock()` and its `unlock()`
throws. -/
theorem C14_holder_unlock_throws :
    ∃ as s es, runs step St.init as = some (s, es) ∧
      .acq .unique 2 ∈ es ∧ es.getLast? = some (.unlockRet .unique 2 false) ∧
      (es.filter (· = .unlockCall .unique 2)).length = 1 :=
  ⟨mixed ++ release .unique 2, _, _, rfl, by decide, rfl, rfl⟩

example : ∃ s es, runs step St.init (fine ++ [.callUnlock .unique 2, .run 2 false]) = some (s, es) ∧
    s.pc 2 = .ulTest .unique false := ⟨_, _, rfl, rfl⟩

end Verif.SharedMutex
