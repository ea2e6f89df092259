import Verif.Sync.CvSim

/-! # Properties of co_condition_variable (C16 – C21) -/

namespace Verif.Cv
open CvSpec

/-- plain wait, wait with predicate, timed wait, timed wait with predicate (Concerns co_condition_variable.h:29-90, co_ctx.cpp:181-207.) -/
abbrev plain : Kind := ⟨false, false⟩
/-- `wait(lock, pred)`. (Concerns co_condition_variable.h:29-90, co_ctx.cpp:181-207.) -/
abbrev withPred : Kind := ⟨true, false⟩
/-- `wait_for`/`wait_until` without predicate. (Concerns co_condition_variable.h:29-90, co_ctx.cpp:181-207.) -/
abbrev timedK : Kind := ⟨false, true⟩
/-- `wait_for`/`wait_until` with predicate. (Concerns co_condition_variable.h:29-90, co_ctx.cpp:181-207.) -/
abbrev timedPred : Kind := ⟨true, true⟩

/-- 1 and then 2 lock the mutex and wait. (Concerns co_condition_variable.h:29-90, co_ctx.cpp:181-207.) -/
def demo : List Act :=
  [.callLock 1, .run 1 false, .callWait 1 plain, .run 1 false, .run 1 false, .run 1 false, .run 1 false,
   .run 1 false,
   .callLock 2, .run 2 false, .callWait 2 plain, .run 2 false, .run 2 false, .run 2 false, .run 2 false,
   .run 2 false]

/-- … and then 3 notifies one, and 1 returns. (Concerns co_condition_variable.h:29-90, co_ctx.cpp:181-207.) -/
def demo2 : List Act :=
  demo ++ [.callNotify 3 false, .run 3 false, .run 3 false, .run 3 false, .run 3 false,
    .run 1 false, .run 1 false, .run 1 false]

/-- C17. Every trace is one of a correct condition variable: `notify_one` releases the coroutine that has
waited longest, `notify_all` all of them, and no coroutine stops waiting unless a notification or its own timer
released it. C16: a coroutine is in the queue from the moment `wait` releases the mutex. C18: predicates are
evaluated and waits return with the mutex held by the caller. -/
theorem C17_cv_correct (as : List Act) (s : St) (es : List Ev)
    (h : runs step St.init as = some (s, es)) : Correct es := by
  obtain ⟨q, hq, _⟩ := runs_sim R step_sim as _ _ _ _ R_init h
  exact ⟨q, hq⟩

example : (runs step St.init demo2).map Prod.snd =
    some [.lock 1, .release 1, .lock 2, .release 2, .notifyOne, .back 1, .relocked 1, .ret 1 true] := by
  decide

/-- C16 / C17 on states: whenever `cv_lock__` is free, the coroutines that sleep are exactly those that the
events so far leave in the queue: released by no notification and no timer of theirs. In particular no
notification is lost, and none wakes anybody else. -/
theorem C16_sleepers_are_the_unnotified (as : List Act) (s : St) (es : List Ev)
    (h : runs step St.init as = some (s, es)) (hc : s.cv = none) :
    ∃ q, accepts acc Q.init es = some q ∧ ∀ t, s.asleep t = true ↔ t ∈ q.queue := by
  obtain ⟨q, hq, hR⟩ := runs_sim R step_sim as _ _ _ _ R_init h
  refine ⟨q, hq, fun t => ?_⟩
  have hl := hR.inv.loc t
  have h1 := hR.inv.cv t
  have hsp : s.spec = s.wl := by simp [St.spec, hc]
  rw [hR.queue, hsp]
  simp only [Loc, St.wlE, St.waking, hc] at hl h1
  cases hp : s.pc t <;> simp only [hp, Pc.cv] at hl h1 <;> grind

example : ((runs step St.init demo).map fun p => (p.1.cv, p.1.asleep 1, p.1.asleep 2)) =
    some (none, true, true) := by decide

/-- In the specification: who is not in the queue stays out of it until it waits again. -/
theorem not_queued_stays {t : Tid} (es : List Ev) (q q' : Q) (h : t ∉ q.queue)
    (hn : Ev.release t ∉ es) (ha : accepts acc q es = some q') : t ∉ q'.queue := by
  induction es generalizing q with
  | nil => simp only [accepts, Option.some.injEq] at ha; exact ha ▸ h
  | cons e es ih =>
    simp only [accepts] at ha
    cases he : acc q e with
    | none => simp [he] at ha
    | some q1 =>
      simp only [he, Option.bind_some] at ha
      refine ih q1 ?_ (by simp_all) ha
      have hne : e ≠ .release t := by rintro rfl; simp at hn
      cases e <;> simp only [acc] at he <;> (try split at he) <;> (try cases he) <;>
        first
          | exact h
          | (simp_all; done)
          | (intro hm; exact h (List.mem_of_mem_erase hm))
          | grind

/-- C16. A `notify_all` that takes effect at any time after `wait` of `t` released the mutex wakes it:
unless `t` waits once more, it does not sleep afterwards (once the notifier has left `cv_lock__`). -/
theorem C16_notify_all_not_lost (as : List Act) (s : St) (e1 e2 : List Ev) (t : Tid)
    (h : runs step St.init as = some (s, e1 ++ Ev.notifyAll :: e2)) (hn : Ev.release t ∉ e2)
    (hc : s.cv = none) : s.asleep t = false := by
  obtain ⟨q, hq, hs⟩ := C16_sleepers_are_the_unnotified as s _ h hc
  rw [accepts_append] at hq
  cases h1 : accepts acc Q.init e1 with
  | none => simp [h1] at hq
  | some q1 =>
    simp only [h1, Option.bind_some, accepts, acc] at hq
    have := not_queued_stays e2 _ q (by simp) hn hq
    rw [← hs] at this
    simpa using this

example : ((runs step St.init (demo ++ [.callNotify 3 true, .run 3 false, .run 3 false, .run 3 false,
      .run 3 false, .run 3 false, .run 3 false])).map fun p => (p.2, p.1.cv, p.1.asleep 1, p.1.asleep 2)) =
    some ([.lock 1, .release 1, .lock 2, .release 2] ++ Ev.notifyAll :: [], none, false, false) := by decide

/-- In the specification: with fewer than `n` waiters in front of it, `n` notifications release `t`. -/
theorem notifications_release {t : Tid} (es : List Ev) (q q' : Q) (pre post : List Tid)
    (hq : q.queue = pre ++ t :: post) (hn : Ev.release t ∉ es) (hc : pre.length < es.count .notifyOne)
    (ha : accepts acc q es = some q') : t ∉ q'.queue ∨ t ∈ pre ++ post := by
  induction es generalizing q pre post with
  | nil => simp at hc
  | cons e es ih =>
    simp only [accepts] at ha
    cases he : acc q e with
    | none => simp [he] at ha
    | some q1 =>
      simp only [he, Option.bind_some] at ha
      have hn' : Ev.release t ∉ es := by simp_all
      by_cases hm : t ∈ pre ++ post
      · exact Or.inr hm
      have hpre : t ∉ pre := fun h => hm (by simp [h])
      have hpost : t ∉ post := fun h => hm (by simp [h])
      have hst := fun hx => not_queued_stays es q1 q' (t := t) hx hn' ha
      cases e with
      | notifyOne =>
        cases pre with
        | nil =>
          simp only [acc, hq, List.nil_append, Option.some.injEq] at he
          subst he
          exact Or.inl (hst hpost)
        | cons a pre =>
          simp only [acc, hq, List.cons_append, Option.some.injEq] at he
          subst he
          have := ih _ pre post rfl hn' (by simp at hc; omega) ha
          rcases this with h | h
          · exact Or.inl h
          · exact Or.inr (by simp at h ⊢; exact Or.inr h)
      | notifyAll =>
        simp only [acc, Option.some.injEq] at he
        subst he
        exact Or.inl (hst (by simp))
      | timeout u =>
        simp only [acc] at he
        have hc' : pre.length < es.count .notifyOne := by simpa using hc
        split at he <;> cases he
        · by_cases hu : u = t
          · subst hu
            refine Or.inl (hst ?_)
            simp only [hq, List.erase_append, hpre, if_false, List.erase_cons_head]
            exact hm
          · have : (pre ++ t :: post).erase u = pre.erase u ++ t :: (post.erase u) ∨
                (pre ++ t :: post).erase u = pre.erase u ++ t :: post := by
              simp only [List.erase_append]
              split
              · exact Or.inr rfl
              · rename_i hup
                left
                rw [List.erase_cons_tail (by simp; exact fun h => hu h.symm), List.erase_of_not_mem hup]
            have hlen : (pre.erase u).length < es.count .notifyOne :=
              Nat.lt_of_le_of_lt List.length_erase_le hc'
            rcases this with h2 | h2
            · rcases ih { q with queue := q.queue.erase u, woken := upd q.woken u true } _ _
                (by simp only [hq]; exact h2) hn' hlen ha with h | h
              · exact Or.inl h
              · refine absurd ?_ hm
                simp only [List.mem_append] at h ⊢
                exact h.imp List.mem_of_mem_erase List.mem_of_mem_erase
            · rcases ih { q with queue := q.queue.erase u, woken := upd q.woken u true } _ _
                (by simp only [hq]; exact h2) hn' hlen ha with h | h
              · exact Or.inl h
              · refine absurd ?_ hm
                simp only [List.mem_append] at h ⊢
                exact h.imp_left List.mem_of_mem_erase
        · exact ih _ pre post hq hn' hc' ha
      | release u =>
        simp only [acc] at he
        split at he <;> cases he
        have hut : u ≠ t := by rintro rfl; simp at hn
        have := ih _ pre (post ++ [u]) (by simp [hq]) hn' (by simpa using hc) ha
        rcases this with h | h
        · exact Or.inl h
        · refine absurd ?_ hm
          simp at h ⊢
          grind
      | back u | relocked u | pred u b | ret u b | lock u | unlock u =>
        simp only [acc] at he
        split at he <;> cases he
        exact ih _ pre post (by simpa using hq) hn' (by simpa using hc) ha

/-- C17. Notifications are not lost and not given to later waiters: if `n` coroutines were waiting when `wait`
of `t` released the mutex, then after `n + 1` calls of `notify_one` that took effect since, `t` does not sleep. -/
theorem C17_notify_one_in_order (as : List Act) (s : St) (e1 e2 : List Ev) (t : Tid) (q1 : Q)
    (h : runs step St.init as = some (s, e1 ++ Ev.release t :: e2)) (hn : Ev.release t ∉ e2)
    (hq1 : accepts acc Q.init e1 = some q1) (hk : q1.queue.length < e2.count .notifyOne)
    (hc : s.cv = none) : s.asleep t = false := by
  obtain ⟨q, hq, hs⟩ := C16_sleepers_are_the_unnotified as s _ h hc
  rw [accepts_append, hq1] at hq
  simp only [Option.bind_some, accepts, acc] at hq
  split at hq
  · rename_i hg
    simp only [Option.bind_some] at hq
    rcases notifications_release e2 _ q q1.queue [] rfl hn hk hq with h | h
    · rw [← hs] at h; simpa using h
    · simp at h; exact absurd h hg.2.1
  · simp at hq

/-- Two waiters, two notifications: both awake. -/
example : ((runs step St.init (demo ++ [.callNotify 3 false, .run 3 false, .run 3 false, .run 3 false,
      .run 3 false, .callNotify 3 false, .run 3 false, .run 3 false, .run 3 false,
      .run 3 false])).map fun p => (p.2, p.1.cv, p.1.asleep 1, p.1.asleep 2)) =
    some ([.lock 1, .release 1, .lock 2] ++ Ev.release 2 :: [.notifyOne, .notifyOne], none, false, false) := by
  decide

/-- The holder of `cv_lock__` can always take its next step: nobody waits for anything inside. -/
theorem C17_cv_lock_released (s : St) (h : Reach step St.init s) (t : Tid) (ht : s.cv = some t) (b : Bool) :
    ∃ s' es, step s (.run t b) = some (s', es) := by
  have hI := h.inv Inv inv_step inv_init
  have h1 := (hI.cv t).2 ht
  simp only [step, runStep]
  cases hp : s.pc t <;> simp only [hp, Pc.cv] at h1 ⊢ <;> first | exact ⟨_, _, rfl⟩ | (cases h1) | skip
  · rename_i all; cases all
    · cases s.wl <;> exact ⟨_, _, rfl⟩
    · exact ⟨_, _, rfl⟩
  · rename_i l; cases l <;> exact ⟨_, _, rfl⟩

/-- C17, no deadlock inside the condition variable: if no coroutine can take a step, every coroutine inside a
call is either waiting for a notification (and registered for it) or waiting for the user's mutex, which a
coroutine outside of all calls holds. -/
theorem C17_no_deadlock (s : St) (h : Reach step St.init s)
    (hst : ∀ t b, step s (.run t b) = none) (t : Tid) (ht : s.pc t ≠ .out) :
    (∃ k, s.pc t = .wYield k) ∧ t ∈ s.wl ∧ s.asleep t = true ∨
    ∃ u, s.mtx = some u ∧ s.pc u = .out := by
  have hI := h.inv Inv inv_step inv_init
  have hc : s.cv = none := by
    cases hc : s.cv with
    | none => rfl
    | some u =>
      obtain ⟨s', es, h1⟩ := C17_cv_lock_released s h u hc false
      rw [hst u false] at h1; cases h1
  have hmt : ∀ u, s.mtx = some u → s.pc u = .out := by
    intro u hu
    have hl := hI.loc u
    have h1 := hI.cv u
    have h2 := hst u true
    simp only [Loc] at hl
    simp only [step, runStep] at h2
    cases hp : s.pc u <;> simp only [hp, hc, hu, St.goto, Pc.cv] at hl h1 h2 <;> try rfl
    all_goals first | (simp at h2; done) | (exfalso; grind)
  have hl := hI.loc t
  have h1 := hI.cv t
  have h2 := hst t true
  simp only [Loc, St.wlE, St.waking, hc] at hl
  simp only [step, runStep] at h2
  cases hm : s.mtx with
  | some u => exact Or.inr ⟨u, rfl, hmt u hm⟩
  | none =>
    left
    cases hp : s.pc t <;> simp only [hp, hc, hm, St.goto, Pc.cv] at hl h1 h2 ht <;>
      first | (simp at h2; done) | (simp at ht; done) | (simp at h1; done) | (simp at hl; done) | skip
    simp at h2
    simp [h2] at hl ⊢
    exact hl.1

/-- In `demo` both coroutines wait for a notification. -/
example : ((runs step St.init demo).map fun p => (p.1.pc 1, p.1.pc 2, p.1.wl)) =
    some (.wYield plain, .wYield plain, [1, 2]) := by decide

/-- C18. In every reachable state: a coroutine about to return from `wait`, or evaluating its predicate, holds the
mutex; while it sleeps, or is about to, or wants the mutex back, it does not. -/
theorem C18_wait_holds_mutex (s : St) (h : Reach step St.init s) (t : Tid) (k : Kind) :
    (s.pc t = .wRet k ∨ s.pc t = .wEval k → s.mtx = some t) ∧
    (s.pc t = .wSleep k ∨ s.pc t = .wRel k ∨ s.pc t = .wYield k ∨ s.pc t = .wLock k →
      s.mtx ≠ some t) := by
  have hl := (h.inv Inv inv_step inv_init).loc t
  simp only [Loc] at hl
  constructor
  · rintro (hp | hp) <;> simp only [hp] at hl <;> exact hl.2.2.2.1
  · rintro (hp | hp | hp | hp) <;> simp only [hp] at hl
    · exact hl.2.2.2.1
    · exact hl.2.2.2.1
    · exact hl.2.1
    · exact hl.2.2.2.1

/-- C18: at the moment `wait` returns its caller holds the mutex. -/
theorem C18_returns_with_mutex (s : St) (h : Reach step St.init s) (t : Tid) (b : Bool) (s' : St)
    (es : List Ev) (r : Bool) (hs : step s (.run t b) = some (s', es)) (hr : Ev.ret t r ∈ es) :
    s'.mtx = some t ∧ s'.pc t = .out := by
  have hl := (h.inv Inv inv_step inv_init).loc t
  simp only [Loc] at hl
  simp only [step, runStep] at hs
  cases hp : s.pc t <;> simp only [hp, St.goto] at hs hl
  case wRet k => cases hs; exact ⟨hl.2.2.2.1, by simp⟩
  case nGo all =>
    cases all
    · cases hw : s.wl <;> simp [hw] at hs <;> obtain ⟨rfl, rfl⟩ := hs <;> simp at hr
    · simp at hs; obtain ⟨rfl, rfl⟩ := hs; simp at hr
  case naWake l =>
    cases l <;> simp at hs <;> obtain ⟨rfl, rfl⟩ := hs <;> simp at hr
  all_goals
    (repeat' split at hs) <;> (try cases hs) <;> simp at hr

/-- 1 is about to return from `wait` while 2 still waits: it has the mutex again. -/
example : ((runs step St.init (demo ++ [.callNotify 3 false, .run 3 false, .run 3 false, .run 3 false,
      .run 3 false, .run 1 false, .run 1 false])).map fun p => (p.1.pc 1, p.1.mtx, p.1.pc 2)) =
    some (.wRet plain, some 1, .wYield plain) := by decide

/-- C19, the part that holds: an untimed `wait` with a predicate returns only from a point that is reached by
evaluating the predicate to true with the mutex held, and nobody touches the mutex in between: the only step to
the return point emits `pred t true`, and the mutex is held by `t` from that evaluation on. -/
theorem C19_returns_only_if_true_partial (s : St) (h : Reach step St.init s) (t : Tid) (a : Act) (s' : St)
    (es : List Ev) (hs : step s a = some (s', es)) (k : Kind) (hk : k.pred = true) (hu : k.timed = false)
    (hb : s.pc t ≠ .wRet k) (hp : s'.pc t = .wRet k) :
    es = [.pred t true] ∧ s.mtx = some t ∧ s'.mtx = some t := by
  have hl := (h.inv Inv inv_step inv_init).loc t
  cases a with
  | run u b =>
    simp only [step, runStep] at hs
    by_cases hut : u = t
    · subst hut
      simp only [Loc] at hl
      cases hpc : s.pc u <;> simp only [hpc, St.goto] at hs hl
      case wEval k' =>
        (repeat' split at hs) <;> (try cases hs) <;> simp at hp <;> grind
      case nGo all =>
        cases all
        · cases hw : s.wl <;> simp [hw] at hs <;> obtain ⟨rfl, rfl⟩ := hs <;> simp at hp
        · simp at hs; obtain ⟨rfl, rfl⟩ := hs; simp at hp
      case naWake l =>
        cases l <;> simp at hs <;> obtain ⟨rfl, rfl⟩ := hs <;> simp at hp
      all_goals
        (repeat' split at hs) <;> (try cases hs) <;> simp at hp <;> grind
    · exfalso
      have : s'.pc t = s.pc t := by
        have hne : t ≠ u := fun e => hut e.symm
        cases hpc : s.pc u <;> simp only [hpc, St.goto] at hs
        case nGo all =>
          cases all
          · cases hw : s.wl <;> simp [hw] at hs <;> obtain ⟨rfl, rfl⟩ := hs <;> simp [hne]
          · simp at hs; obtain ⟨rfl, rfl⟩ := hs; simp [hne]
        case naWake l =>
          cases l <;> simp at hs <;> obtain ⟨rfl, rfl⟩ := hs <;> simp [hne]
        all_goals
          (repeat' split at hs) <;> (try cases hs) <;> simp [hne]
      exact hb (this ▸ hp)
  | callLock u | callUnlock u | callWait u k' | callNotify u all | fire u =>
    simp only [step, St.goto] at hs
    split at hs <;> cases hs <;> grind

/-- 1 waits with a predicate, is notified, finds it false, waits again, is notified, finds it true, returns. (Concerns co_condition_variable.h:29-90, co_ctx.cpp:181-207.) -/
def demoPred : List Act :=
  [.callLock 1, .run 1 false, .callWait 1 withPred, .run 1 false, .run 1 false, .run 1 false, .run 1 false,
   .run 1 false, .callNotify 3 false, .run 3 false, .run 3 false, .run 3 false, .run 3 false,
   .run 1 false, .run 1 false, .run 1 false,
   .run 1 false, .run 1 false, .run 1 false, .run 1 false, .run 1 false,
   .callNotify 3 false, .run 3 false, .run 3 false, .run 3 false, .run 3 false,
   .run 1 false, .run 1 false, .run 1 true, .run 1 false]

example : (runs step St.init demoPred).map Prod.snd =
    some [.lock 1, .release 1, .notifyOne, .back 1, .relocked 1, .pred 1 false, .release 1, .notifyOne,
      .back 1, .relocked 1, .pred 1 true, .ret 1 true] := by decide

/-- C19 for the timed version: it returns true only if it has just evaluated the predicate to true, with the
mutex held. -/
theorem C19_timed_true_only_if_pred_partial (s : St) (h : Reach step St.init s) (t : Tid) (b : Bool)
    (s' : St) (es : List Ev) (k : Kind) (hp : s.pc t = .wRet k) (hk : k.pred = true) (hu : k.timed = true)
    (hs : step s (.run t b) = some (s', es)) (hr : Ev.ret t true ∈ es) :
    es = [.pred t true, .ret t true] ∧ s.mtx = some t ∧ s'.mtx = some t := by
  have hl := (h.inv Inv inv_step inv_init).loc t
  simp only [Loc, hp] at hl
  simp only [step, runStep, hp] at hs
  cases hs
  cases ht : s.timeout <;> cases b <;> simp [hk, hu, ht] at hr ⊢
  exact hl.2.2.2.1

/-- 1 waits with predicate and time limit, is notified in time with the predicate true. -/
example : (runs step St.init
    [.callLock 1, .run 1 false, .callWait 1 timedPred, .run 1 false, .run 1 false, .run 1 false, .run 1 false,
     .run 1 false, .run 1 false, .callNotify 2 false, .run 2 false, .run 2 false, .run 2 false, .run 2 false,
     .run 1 false, .run 1 false, .run 1 true, .run 1 true]).map Prod.snd =
    some [.lock 1, .release 1, .notifyOne, .back 1, .relocked 1, .pred 1 true, .pred 1 true, .ret 1 true] := by
  decide

/-- Does a coroutine at this point run no notification? (Concerns co_condition_variable.h:29-90, co_ctx.cpp:181-207.) -/
def Pc.quiet : Pc → Bool
  | .nCv _ | .nGo _ | .nWake _ | .naWake _ | .nRel => false
  | _ => true

/-- `t` is on its way into a wait, or sleeps in one, has no timer pending, and nobody notifies. (Concerns co_condition_variable.h:29-90, co_ctx.cpp:181-207.) -/
structure Doomed (s : St) (t : Tid) (k : Kind) : Prop where
  pc : s.pc t = .wCv k ∨ s.pc t = .wPush k ∨ s.pc t = .wUnlk k ∨ s.pc t = .wSleep k ∨
    (s.pc t = .wRel k ∧ s.asleep t = true) ∨ (s.pc t = .wYield k ∧ s.asleep t = true)
  armed : s.armed t = false
  quiet : ∀ u, (s.pc u).quiet = true

theorem doomed_step {s s' : St} {t : Tid} {k : Kind} {a : Act} {es : List Ev} (hI : Doomed s t k)
    (ha : ∀ u all, a ≠ .callNotify u all) (h1 : step s a = some (s', es)) :
    Doomed s' t k ∧ (s.pc t = .wYield k → s'.pc t = .wYield k) ∧ (∀ b, Ev.pred t b ∉ es) ∧
      (∀ r, Ev.ret t r ∉ es) := by
  obtain ⟨i2, i3, i4⟩ := hI
  cases a with
  | callNotify u all => exact absurd rfl (ha u all)
  | fire u =>
    simp only [step] at h1
    split at h1 <;> cases h1
    rename_i hc
    have hu : t ≠ u := by rintro rfl; simp [i3] at hc
    exact ⟨⟨by simpa [hu] using i2, by simp [hu, i3], i4⟩, fun h => h, by simp, by simp⟩
  | callUnlock u =>
    simp only [step] at h1
    split at h1 <;> cases h1
    exact ⟨⟨i2, i3, i4⟩, fun h => h, by simp, by simp⟩
  | callLock u | callWait u k =>
    simp only [step, St.goto] at h1
    split at h1 <;> cases h1
    rename_i hc
    have hu : t ≠ u := by rintro rfl; simp [hc.1] at i2
    refine ⟨⟨by simpa [hu] using i2, i3, fun v => ?_⟩, by simp [hu], by simp, by simp⟩
    by_cases hv : v = u
    · subst hv; simp only [upd_same]; first | rfl | (split <;> rfl)
    · simp [hv]; exact i4 v
  | run u b =>
    simp only [step, runStep] at h1
    have hnp := i4 u
    by_cases hu : t = u
    · subst hu
      have hq : ∀ p, p.quiet = true → ∀ v, (upd s.pc t p v).quiet = true := by
        intro p hp v
        by_cases hv : v = t
        · subst hv; simpa using hp
        · simpa [hv] using i4 v
      rcases i2 with hp | hp | hp | hp | ⟨hp, ha⟩ | ⟨hp, ha⟩ <;> simp only [hp] at h1
      · split at h1 <;> cases h1
        exact ⟨⟨by simp, i3, hq _ rfl⟩, by simp [hp], by simp, by simp⟩
      · cases h1; exact ⟨⟨by simp, i3, hq _ rfl⟩, by simp [hp], by simp, by simp⟩
      · cases h1; exact ⟨⟨by simp, i3, hq _ rfl⟩, by simp [hp], by simp, by simp⟩
      · cases h1; exact ⟨⟨by simp, i3, hq _ rfl⟩, by simp [hp], by simp, by simp⟩
      · cases h1; exact ⟨⟨by simp [ha], i3, hq _ rfl⟩, by simp [hp], by simp, by simp⟩
      · simp [ha] at h1
    · cases hp : s.pc u <;> simp only [hp, St.goto, Pc.quiet] at h1 hnp <;> try (cases hnp)
      all_goals
        (repeat' split at h1) <;> (try cases h1)
      all_goals
        refine ⟨⟨by simpa [hu] using i2, by simp [hu, i3], fun v => ?_⟩, by simp [hu], by simp [hu], by simp [hu]⟩
        by_cases hv : v = u
        · subst hv; simp only [upd_same]; first | rfl | (split <;> rfl)
        · simpa [hv] using i4 v

theorem doomed_runs {t : Tid} {k : Kind} (bs : List Act) (s s' : St) (fs : List Ev) (hI : Doomed s t k)
    (h : runs step s bs = some (s', fs)) (hb : ∀ a ∈ bs, ∀ u all, a ≠ .callNotify u all) :
    Doomed s' t k ∧ (s.pc t = .wYield k → s'.pc t = .wYield k) ∧ (∀ b, Ev.pred t b ∉ fs) ∧ (∀ r, Ev.ret t r ∉ fs) := by
  induction bs generalizing s fs with
  | nil =>
    simp only [runs, Option.some.injEq, Prod.mk.injEq] at h
    obtain ⟨rfl, rfl⟩ := h
    exact ⟨hI, fun h => h, by simp, by simp⟩
  | cons a bs ih =>
    obtain ⟨s1, e1, e2, h1, h2, rfl⟩ := runs_cons h
    obtain ⟨hI1, hy1, hp1, hr1⟩ := doomed_step hI (hb a (by simp)) h1
    obtain ⟨hI2, hy2, hp2, hr2⟩ := ih s1 e2 hI1 h2 (fun a ha => hb a (by simp [ha]))
    refine ⟨hI2, fun h => hy2 (hy1 h), ?_, ?_⟩
    · intro b hb; rcases List.mem_append.1 hb with h | h
      · exact hp1 b h
      · exact hp2 b h
    · intro r hb; rcases List.mem_append.1 hb with h | h
      · exact hr1 r h
      · exact hr2 r h

/-- C19 is false as stated: `wait(pred)` waits before it looks at the predicate (the do-while of h:75-87).
Whatever the predicate would say, from the call on coroutine 1 does not return, nor evaluate the predicate,
however it and any others are scheduled and whatever they call, as long as nobody notifies. -/
theorem C19_waits_even_if_true_negation :
    ∃ as s es, runs step St.init as = some (s, es) ∧ s.pc 1 = .wCv withPred ∧
      ∀ (bs : List Act) (s' : St) (fs : List Ev), runs step s bs = some (s', fs) →
        (∀ a ∈ bs, ∀ u all, a ≠ .callNotify u all) →
        (∀ b, Ev.pred 1 b ∉ fs) ∧ (∀ r, Ev.ret 1 r ∉ fs) := by
  refine ⟨[.callLock 1, .run 1 false, .callWait 1 withPred], _, _, rfl, by decide, ?_⟩
  intro bs s' fs hr hb
  refine (doomed_runs (k := withPred) bs _ s' fs ⟨Or.inl (by decide), by decide, fun u => ?_⟩ hr hb).2.2
  by_cases hu : u = 1
  · subst hu; decide
  · simp [St.goto, St.init, hu, Pc.quiet]

/-- C20, the part that holds (1): a timed wait whose own timer fired returns false. -/
theorem C20_own_timeout_returns_false_partial (s : St) (h : Reach step St.init s) (t : Tid) (b : Bool)
    (s' : St) (es : List Ev) (k : Kind) (hp : s.pc t = .wRet k) (hk : k.timed = true)
    (hf : s.fired t = true) (hs : step s (.run t b) = some (s', es)) :
    es = [.ret t false] := by
  have hI := h.inv Inv inv_step inv_init
  simp only [step, runStep, hp] at hs
  cases hs
  simp [hk, hI.fire t hf]

/-- 1 waits with a time limit, the timer fires, it returns false. (Concerns co_condition_variable.h:29-90, co_ctx.cpp:181-207.) -/
def demoTimed : List Act :=
  [.callLock 1, .run 1 false, .callWait 1 timedK, .run 1 false, .run 1 false, .run 1 false, .run 1 false,
   .run 1 false, .run 1 false, .fire 1, .run 1 false, .run 1 false, .run 1 false]

example : (runs step St.init demoTimed).map Prod.snd =
    some [.lock 1, .release 1, .timeout 1, .back 1, .relocked 1, .ret 1 false] := by decide

/-- No timer has fired so far and `timeout__` is still false: kept until one fires. -/
theorem timeout_only_by_fire (as : List Act) (s : St) (es : List Ev)
    (h : runs step St.init as = some (s, es)) (hn : ∀ u, Ev.timeout u ∉ es) : s.timeout = false := by
  have key : ∀ (as : List Act) (s s' : St) (es : List Ev), s.timeout = false →
      runs step s as = some (s', es) → (∀ u, Ev.timeout u ∉ es) → s'.timeout = false := by
    intro as
    induction as with
    | nil => intro s s' es h0 h _; simp only [runs, Option.some.injEq, Prod.mk.injEq] at h; exact h.1 ▸ h0
    | cons a as ih =>
      intro s s' es h0 h hn
      obtain ⟨s1, e1, e2, h1, h2, rfl⟩ := runs_cons h
      refine ih s1 s' e2 ?_ h2 (fun u hu => hn u (by simp [hu]))
      have hn1 : ∀ u, Ev.timeout u ∉ e1 := fun u hu => hn u (by simp [hu])
      cases a with
      | run t b =>
        simp only [step, runStep] at h1
        cases hp : s.pc t <;> simp only [hp, St.goto] at h1
        case nGo all =>
          cases all
          · cases hw : s.wl <;> simp [hw] at h1 <;> obtain ⟨rfl, rfl⟩ := h1 <;> exact h0
          · simp at h1; obtain ⟨rfl, rfl⟩ := h1; exact h0
        case naWake l =>
          cases l <;> simp at h1 <;> obtain ⟨rfl, rfl⟩ := h1 <;> exact h0
        all_goals
          (repeat' split at h1) <;> (try cases h1) <;> exact h0
      | fire t =>
        simp only [step] at h1
        split at h1 <;> cases h1
        exact absurd (hn1 t) (by simp)
      | callLock u | callUnlock u | callWait u k' | callNotify u all =>
        simp only [step, St.goto] at h1
        split at h1 <;> cases h1 <;> exact h0
  exact key as _ s es rfl h hn

/-- C20, the part that holds (2): as long as no timed wait on this condition variable has ever timed out, a
timed wait without predicate returns true, and one with a predicate returns what the predicate says then. -/
theorem C20_no_timeout_returns_true_partial (as : List Act) (s : St) (es0 : List Ev)
    (h : runs step St.init as = some (s, es0)) (hn : ∀ u, Ev.timeout u ∉ es0) (t : Tid) (b : Bool)
    (s' : St) (es : List Ev) (k : Kind) (hp : s.pc t = .wRet k)
    (hs : step s (.run t b) = some (s', es)) :
    Ev.ret t (if k.timed ∧ k.pred then b else true) ∈ es := by
  have h0 := timeout_only_by_fire as s es0 h hn
  simp only [step, runStep, hp] at hs
  cases hs
  rcases k with ⟨p, q⟩
  cases p <;> cases q <;> simp [h0]

/-- 1 waits with a time limit and is notified in time. -/
example : (runs step St.init
    [.callLock 1, .run 1 false, .callWait 1 timedK, .run 1 false, .run 1 false, .run 1 false, .run 1 false,
     .run 1 false, .run 1 false, .callNotify 2 false, .run 2 false, .run 2 false, .run 2 false, .run 2 false,
     .run 1 false, .run 1 false, .run 1 false]).map Prod.snd =
    some [.lock 1, .release 1, .notifyOne, .back 1, .relocked 1, .ret 1 true] := by decide

/-- C20 is false as stated: `timeout__` (h:31) is a member that nothing resets. After one time-out, a second
wait on the same condition variable that is notified, and whose own timer never fires, returns false. -/
theorem C20_sticky_timeout_negation :
    ∃ as bs s1 s2 es fs, runs step St.init as = some (s1, es) ∧ s1.pc 2 = .out ∧
      runs step s1 bs = some (s2, fs) ∧
      fs = [.lock 2, .release 2, .notifyOne, .back 2, .relocked 2, .ret 2 false] :=
  ⟨demoTimed ++ [.callUnlock 1],
   [.callLock 2, .run 2 false, .callWait 2 timedK, .run 2 false, .run 2 false, .run 2 false, .run 2 false,
    .run 2 false, .run 2 false, .callNotify 3 false, .run 3 false, .run 3 false, .run 3 false, .run 3 false,
    .run 2 false, .run 2 false, .run 2 false], _, _, _, _, rfl, by decide, rfl, by decide⟩

/-- C20: … and a timed wait with a predicate does not even look at the predicate then: notified with the predicate
true, it returns false. -/
theorem C20_sticky_timeout_pred_negation :
    ∃ as bs s1 s2 es fs, runs step St.init as = some (s1, es) ∧ s1.pc 2 = .out ∧
      runs step s1 bs = some (s2, fs) ∧ (∀ a ∈ bs, a ≠ .fire 2) ∧
      fs = [.lock 2, .release 2, .notifyOne, .back 2, .relocked 2, .ret 2 false] :=
  ⟨demoTimed ++ [.callUnlock 1],
   [.callLock 2, .run 2 true, .callWait 2 timedPred, .run 2 true, .run 2 true, .run 2 true, .run 2 true,
    .run 2 true, .run 2 true, .callNotify 3 false, .run 3 false, .run 3 false, .run 3 false, .run 3 false,
    .run 2 true, .run 2 true, .run 2 true, .run 2 true], _, _, _, _, rfl, by decide, rfl, by decide, by decide⟩

/-- C21, the part that holds: when the timer fires while the coroutine is registered (in particular whenever it
sleeps and its timer is still pending), it is awake afterwards and no longer registered, so that a later
notification goes to another waiter. -/
theorem C21_fire_wakes_partial (s : St) (h : Reach step St.init s) (t : Tid) (s' : St) (es : List Ev)
    (hs : step s (.fire t) = some (s', es)) :
    s'.asleep t = false ∧ t ∉ s'.wl ∧ (∀ u, u ≠ t → s'.asleep u = s.asleep u ∧ (u ∈ s'.wl ↔ u ∈ s.wl)) := by
  simp only [step] at hs
  split at hs <;> cases hs
  simp only [upd_same, List.mem_filter, decide_not, Bool.not_eq_true', decide_eq_false_iff_not, not_true,
    and_false, not_false_eq_true, true_and]
  intro u hu
  simp [hu]

/-- C21, the part that holds: a timed waiter that sleeps either has its timer still pending, or the timer fired
before it registered itself. -/
theorem C21_sleeping_timed_waiter_partial (s : St) (h : Reach step St.init s) (t : Tid) (k : Kind)
    (hp : s.pc t = .wYield k) (hk : k.timed = true) (ha : s.asleep t = true) (hf : s.fired t = false) :
    s.armed t = true ∧ ∀ (hc : s.cv = none), ∃ s', step s (.fire t) = some (s', [.timeout t]) ∧
      s'.asleep t = false := by
  have hl := (h.inv Inv inv_step inv_init).loc t
  simp only [Loc, hp] at hl
  have := hl.2.2.2 hk
  rw [hf] at this
  refine ⟨by simpa using this, fun hc => ⟨_, by simp [step, this, hc]; rfl, by simp⟩⟩

example : ((runs step St.init (demoTimed.take 9)).map fun p =>
    (p.1.pc 1, p.1.asleep 1, p.1.armed 1, p.1.fired 1, p.1.cv)) =
    some (.wYield timedK, true, true, false, none) := by decide

/-- C21 is false as stated: the timer is started before the coroutine registers itself (h:96-103 before h:105-111). If
it fires in between, the wake-up finds nobody; the coroutine then registers and sleeps, and stays asleep in every
continuation in which nobody calls notify, although its time is up. -/
theorem C21_early_fire_lost_negation :
    ∃ as s es, runs step St.init as = some (s, es) ∧ Ev.timeout 1 ∈ es ∧ s.asleep 1 = true ∧
      s.pc 1 = .wYield timedK ∧
      ∀ (bs : List Act) (s' : St) (fs : List Ev), runs step s bs = some (s', fs) →
        (∀ a ∈ bs, ∀ u all, a ≠ .callNotify u all) → s'.asleep 1 = true ∧ s'.pc 1 = .wYield timedK := by
  refine ⟨[.callLock 1, .run 1 false, .callWait 1 timedK, .run 1 false, .fire 1, .run 1 false, .run 1 false,
    .run 1 false, .run 1 false, .run 1 false], _, _, rfl, by decide, by decide, by decide, ?_⟩
  intro bs s' fs hr hb
  have hd := doomed_runs (t := 1) (k := timedK) bs _ s' fs
    ⟨by decide, by decide, fun u => by
      by_cases hu : u = 1
      · subst hu; decide
      · simp [St.goto, St.init, hu, Pc.quiet]⟩ hr hb
  have hy := hd.2.1 (by decide)
  have hp := hd.1.pc
  simp only [hy] at hp
  exact ⟨by simpa using hp, hy⟩

end Verif.Cv
