import Verif.Base.Prog
import Verif.Base.Lts

/-!
# C107: the result of a coroutine reaches those who wait for it

A coroutine writes its result (co_ctx.cpp:69), sets its state to finished (co_ctx.cpp:77-79) and wakes the coroutines that wait for it
(co_ctx.cpp:80, co_env.cpp:123-126, 172-174). These read the result after they found the coroutine finished or were woken. Neither the result
nor the exception has a lock of its own. The model has the two kinds of locks that matter, the one of the coroutine's state and the ones of the
waiters' flags. The others (`finished_state_mutex__`, the one of the event, `wait_data__.mu`, the schedule locks) are left out: they would
only order more and allow less. For the same reason the finisher may wake anybody, subscribed or not.
-/

namespace Verif.Publish

open Verif.Hb Verif.Prog

/-- The locks: of the state of the coroutine (co_state_manager.h:13), of the flags of the waiter `d` (co_flag_manager.h:15). -/
inductive PLk
  | st
  | flag (d : Nat)
  deriving DecidableEq, Repr

/-- Where the coroutine is whose result it is: in its function; at `set_state(finished)`, before and after taking the lock; in
`finished().pub()`; clearing the flag WAITING of `d`. (co_ctx.cpp:65-83, 192-207) -/
inductive FPc
  | body | st | set | pub | clear (d : Nat)
  deriving DecidableEq, Repr

/-- Where a waiter is: before the call; at `ctx->state()` (co_env.cpp:116, 169), before and after taking the lock; at
`enter_wait_resource_state` (co_env.cpp:122, 171), likewise; asleep, that is, its thread tests its flag (co_ctx.cpp:141-144), likewise; with a
time-out, at the second `state()` (co_env.cpp:144), likewise; returned, the result may be read (co_env.cpp:151, 186, co_co.h:141-144); the
time-out was first. -/
inductive WPc
  | out | st | look | park | set | poll | test | st2 | look2 | read | gone
  deriving DecidableEq, Repr

/-- The state: the locks, is the state of the coroutine finished, the flags WAITING of the waiters, the program counters, has the waiter a
time-out, has the finisher cleared its flag (ghost); has the timer of `d` taken the flag's lock (co_env.cpp:127-130). -/
structure PSt where
  lk : PLk → Option Nat
  finished : Bool
  flag : Nat → Bool
  f : FPc
  w : Nat → WPc
  timed : Nat → Bool
  woken : Nat → Bool
  timer : Nat → Bool

/-- The start. (Concerns co_env.cpp:116-186, co_ctx.cpp:65-207.) -/
def PSt.init : PSt := ⟨fun _ => none, false, fun _ => false, .body, fun _ => .out, fun _ => false, fun _ => false, fun _ => false⟩

/-- The agent of a waiter, of its timer; the coroutine waited for is agent 0. (Concerns co_env.cpp:116-186, co_ctx.cpp:65-207.) -/
abbrev wAg (d : Nat) : Nat := 2 * d + 1
/-- The agent that runs the callback of the timer of `d`. (Concerns co_env.cpp:116-186, co_ctx.cpp:65-207.) -/
abbrev tAg (d : Nat) : Nat := 2 * d + 2

/-- Take the lock `l`, give it back. (Concerns co_env.cpp:116-186, co_ctx.cpp:65-207.) -/
def PSt.take (s : PSt) (l : PLk) (a : Nat) : PSt := { s with lk := fun k => if k = l then some a else s.lk k }
/-- Give the lock back. (Concerns co_env.cpp:116-186, co_ctx.cpp:65-207.) -/
def PSt.give (s : PSt) (l : PLk) : PSt := { s with lk := fun k => if k = l then none else s.lk k }

/-- Actions: the coroutine writes its result, makes its next step (in `pub`, towards `d`); a waiter calls `wait` or `wait_for`, makes its next
step; the timer of a waiter makes its next step. (Concerns co_env.cpp:116-186, co_ctx.cpp:65-207.) -/
inductive PAct
  | write
  | fin (d : Nat)
  | call (d : Nat) (timed : Bool)
  | run (d : Nat)
  | tick (d : Nat)
  deriving DecidableEq, Repr

/-- One step; reading and changing what a lock guards is one step with giving the lock back. (Concerns co_env.cpp:116-186, co_ctx.cpp:65-207.) -/
def pstep (s : PSt) : PAct → Option (PSt × Tr PLk Unit)
  | .write => if s.f = .body then some (s, [(0, .wr ())]) else none
  | .fin d =>
    match s.f with
    | .body => some ({ s with f := .st }, [])
    | .st => if s.lk .st = none then some ({ s.take .st 0 with f := .set }, [(0, .acq .st)]) else none
    | .set => some ({ s.give .st with f := .pub, finished := true }, [(0, .rel .st)])
    | .pub => if s.lk (.flag d) = none then some ({ s.take (.flag d) 0 with f := .clear d }, [(0, .acq (.flag d))]) else none
    | .clear d => some ({ s.give (.flag d) with f := .pub, flag := upd s.flag d false, woken := upd s.woken d true }, [(0, .rel (.flag d))])
  | .call d timed => if s.w d = .out then some ({ s with w := upd s.w d .st, timed := upd s.timed d timed }, []) else none
  | .run d =>
    match s.w d with
    | .out => none
    | .st => if s.lk .st = none then some ({ s.take .st (wAg d) with w := upd s.w d .look }, [(wAg d, .acq .st)]) else none
    | .look => some ({ s.give .st with w := upd s.w d (if s.finished then .read else .park) }, [(wAg d, .rel .st)])
    | .park => if s.lk (.flag d) = none then some ({ s.take (.flag d) (wAg d) with w := upd s.w d .set }, [(wAg d, .acq (.flag d))]) else none
    | .set => some ({ s.give (.flag d) with w := upd s.w d .poll, flag := upd s.flag d true }, [(wAg d, .rel (.flag d))])
    | .poll => if s.lk (.flag d) = none then some ({ s.take (.flag d) (wAg d) with w := upd s.w d .test }, [(wAg d, .acq (.flag d))]) else none
    | .test => some ({ s.give (.flag d) with w := upd s.w d (if s.flag d then .poll else if s.timed d then .st2 else .read) }, [(wAg d, .rel (.flag d))])
    | .st2 => if s.lk .st = none then some ({ s.take .st (wAg d) with w := upd s.w d .look2 }, [(wAg d, .acq .st)]) else none
    | .look2 => some ({ s.give .st with w := upd s.w d (if s.finished then .read else .gone) }, [(wAg d, .rel .st)])
    | .read => some (s, [(wAg d, .rd ())])
    | .gone => none
  | .tick d =>
    if s.timed d = false then none
    else if s.timer d then some ({ s.give (.flag d) with timer := upd s.timer d false, flag := upd s.flag d false }, [(tAg d, .rel (.flag d))])
    else if s.lk (.flag d) = none then some ({ s.take (.flag d) (tAg d) with timer := upd s.timer d true }, [(tAg d, .acq (.flag d))])
    else none

/-- The coroutine has released `l` after all its writes. (Concerns co_env.cpp:116-186, co_ctx.cpp:65-207.) -/
def Pub (tr : Tr PLk Unit) (l : PLk) : Prop := ∃ r : Nat, tr[r]? = some (0, Op.rel l) ∧ ∀ i : Nat, tr[i]? = some (0, Op.wr ()) → i < r

/-- After that, the agent `a` has taken `l`. (Concerns co_env.cpp:116-186, co_ctx.cpp:65-207.) -/
def Seen (tr : Tr PLk Unit) (a : Nat) (l : PLk) : Prop :=
  ∃ r q : Nat, r < q ∧ tr[r]? = some (0, Op.rel l) ∧ (∀ i : Nat, tr[i]? = some (0, Op.wr ()) → i < r) ∧ tr[q]? = some (a, Op.acq l)

/-- The invariant of the state alone. (Concerns co_env.cpp:116-186, co_ctx.cpp:65-207.) -/
structure SInv (s : PSt) : Prop where
  fst : s.lk .st = some 0 ↔ s.f = .set
  fflag : ∀ d, s.lk (.flag d) = some 0 ↔ s.f = .clear d
  wst : ∀ d, s.lk .st = some (wAg d) ↔ (s.w d = .look ∨ s.w d = .look2)
  wflag : ∀ d, s.lk (.flag d) = some (wAg d) ↔ (s.w d = .set ∨ s.w d = .test)
  tflag : ∀ d, s.lk (.flag d) = some (tAg d) ↔ s.timer d = true
  early : s.f = .body ∨ s.f = .st ∨ s.f = .set → s.finished = false
  late : ∀ d, s.f = .pub ∨ s.f = .clear d → s.finished = true
  woke : ∀ d, s.woken d = true → s.finished = true
  awake : ∀ d, s.w d = .poll ∨ s.w d = .test → s.flag d = false → s.timed d = false → s.woken d = true
  read : ∀ d, s.w d = .read → s.finished = true

theorem sinv_init : SInv PSt.init := by
  constructor <;> simp [PSt.init]

theorem sinv_step (s s' : PSt) (a : PAct) (e : Tr PLk Unit) (h : SInv s) (hs : pstep s a = some (s', e)) : SInv s' := by
  obtain ⟨h1, h2, h3, h4, h5, h6, h7, h8, h9, h10⟩ := h
  cases a with
  | write => simp only [pstep] at hs; split at hs <;> cases hs; constructor <;> assumption
  | fin d =>
    simp only [pstep] at hs
    split at hs <;> (try split at hs) <;> cases hs <;> constructor <;> (try simp only [PSt.take, PSt.give]) <;> grind
  | call d b => simp only [pstep] at hs; split at hs <;> cases hs; constructor <;> grind
  | run d =>
    simp only [pstep] at hs
    split at hs <;> (try split at hs) <;> cases hs <;> constructor <;> (try simp only [PSt.take, PSt.give]) <;> grind
  | tick d =>
    simp only [pstep] at hs
    split at hs <;> (try split at hs) <;> (try split at hs) <;> cases hs <;> constructor <;> (try simp only [PSt.take, PSt.give]) <;> grind

set_option hygiene false in
/-- Closes the cases of `step_lock`. -/
macro "close" : tactic => `(tactic| first
  | exact .inl ⟨rfl, by trivial⟩
  | exact .inr (.inl ⟨_, _, rfl, by assumption, rfl⟩)
  | exact .inr (.inr (.inl ⟨_, _, rfl, by grind, rfl⟩))
  | exact .inr (.inr (.inr (.inl ⟨rfl, by assumption, rfl⟩)))
  | exact .inr (.inr (.inr (.inr ⟨_, rfl, by assumption, rfl⟩))))

/-- What a step does to the locks, and what it puts into the trace. -/
theorem step_lock (s s' : PSt) (a : PAct) (e : Tr PLk Unit) (h : SInv s) (hs : pstep s a = some (s', e)) :
    (e = [] ∧ s'.lk = s.lk) ∨
    (∃ b l, e = [(b, .acq l)] ∧ s.lk l = none ∧ s'.lk = fun k => if k = l then some b else s.lk k) ∨
    (∃ b l, e = [(b, .rel l)] ∧ s.lk l = some b ∧ s'.lk = fun k => if k = l then none else s.lk k) ∨
    (e = [(0, .wr ())] ∧ s.f = .body ∧ s' = s) ∨
    (∃ d, e = [(wAg d, .rd ())] ∧ s.w d = .read ∧ s' = s) := by
  obtain ⟨h1, h2, h3, h4, h5, _⟩ := h
  cases a with
  | write => simp only [pstep] at hs; split at hs <;> cases hs; close
  | fin d =>
    simp only [pstep] at hs
    split at hs <;> (try split at hs) <;> cases hs <;> close
  | call d b => simp only [pstep] at hs; split at hs <;> cases hs; close
  | run d =>
    have h3 := h3 d
    have h4 := h4 d
    simp only [pstep] at hs
    split at hs <;> (try split at hs) <;> cases hs <;> close
  | tick d =>
    have h5 := h5 d
    simp only [pstep] at hs
    split at hs <;> (try split at hs) <;> (try split at hs) <;> cases hs <;> close

/-- What a step does to the rest, as far as it matters for the trace. -/
theorem step_facts (s s' : PSt) (a : PAct) (e : Tr PLk Unit) (h : SInv s) (hs : pstep s a = some (s', e)) :
    (s'.finished = true → s.finished = true ∨ e = [(0, .rel .st)]) ∧
    (∀ d, s'.woken d = true → s.woken d = true ∨ e = [(0, .rel (.flag d))]) ∧
    (∀ d, s'.w d = .look ∨ s'.w d = .look2 → s'.finished = true → s.finished = true ∧ ((s.w d = .look ∨ s.w d = .look2) ∨ e = [(wAg d, .acq .st)])) ∧
    (∀ d, s'.w d = .test → s'.woken d = true → s.woken d = true ∧ (s.w d = .test ∨ e = [(wAg d, .acq (.flag d))])) ∧
    (∀ d, s'.w d = .read → s.w d = .read ∨ ((s.w d = .look ∨ s.w d = .look2) ∧ s.finished = true) ∨ (s.w d = .test ∧ s.woken d = true)) ∧
    (s.finished = true → s'.finished = true) := by
  obtain ⟨h1, h2, h3, h4, h5, h6, h7, h8, h9, h10⟩ := h
  cases a with
  | write => simp only [pstep] at hs; split at hs <;> cases hs; grind
  | fin d =>
    simp only [pstep] at hs
    split at hs <;> (try split at hs) <;> cases hs <;> (try simp only [PSt.take, PSt.give]) <;> grind
  | call d b => simp only [pstep] at hs; split at hs <;> cases hs; grind
  | run d =>
    simp only [pstep] at hs
    split at hs <;> (try split at hs) <;> cases hs <;> (try simp only [PSt.take, PSt.give]) <;> grind
  | tick d =>
    simp only [pstep] at hs
    split at hs <;> (try split at hs) <;> (try split at hs) <;> cases hs <;> (try simp only [PSt.take, PSt.give]) <;> grind

theorem mono {tr : Tr PLk Unit} (e : Tr PLk Unit) (k : Nat) (f : Nat × Op PLk Unit) (h : tr[k]? = some f) : (tr ++ e)[k]? = some f := by
  rw [List.getElem?_append_left (List.getElem?_eq_some_iff.1 h).1]; exact h

/-- No write of the result. (Concerns co_env.cpp:116-186, co_ctx.cpp:65-207.) -/
abbrev Quiet (e : Tr PLk Unit) : Prop := (0, Op.wr ()) ∉ e

theorem quiet {tr e : Tr PLk Unit} (h : Quiet e) {i : Nat} (hi : (tr ++ e)[i]? = some (0, Op.wr ())) : tr[i]? = some (0, Op.wr ()) := by
  rw [List.getElem?_append] at hi
  split at hi
  · exact hi
  · exact absurd (List.mem_of_getElem? hi) h

theorem Pub.mono {tr : Tr PLk Unit} {l : PLk} (h : Pub tr l) {e : Tr PLk Unit} (he : Quiet e) : Pub (tr ++ e) l := by
  obtain ⟨r, h1, h2⟩ := h
  exact ⟨r, Publish.mono _ _ _ h1, fun i hi => h2 i (quiet he hi)⟩

theorem Seen.mono {tr : Tr PLk Unit} {a : Nat} {l : PLk} (h : Seen tr a l) {e : Tr PLk Unit} (he : Quiet e) : Seen (tr ++ e) a l := by
  obtain ⟨r, q, h0, h1, h2, h3⟩ := h
  exact ⟨r, q, h0, Publish.mono _ _ _ h1, fun i hi => h2 i (quiet he hi), Publish.mono _ _ _ h3⟩

theorem pub_new {tr : Tr PLk Unit} {l : PLk} : Pub (tr ++ [(0, .rel l)]) l :=
  ⟨tr.length, by simp, fun i hi => (List.getElem?_eq_some_iff.1 (quiet (by simp [Quiet]) hi)).1⟩

theorem seen_new {tr : Tr PLk Unit} {a : Nat} {l : PLk} (h : Pub tr l) : Seen (tr ++ [(a, .acq l)]) a l := by
  obtain ⟨r, h1, h2⟩ := h
  exact ⟨r, tr.length, (List.getElem?_eq_some_iff.1 h1).1, Publish.mono _ _ _ h1, fun i hi => h2 i (quiet (by simp [Quiet]) hi), by simp⟩

/-- Who has taken a lock after it was released is ordered after the release. -/
theorem rel_acq {L X : Type} [DecidableEq L] {tr : Tr L X} (hw : WF tr) {l : L} {r q a b : Nat} (hrq : r < q) (hr : tr[r]? = some (a, .rel l))
    (hq : tr[q]? = some (b, .acq l)) : HB tr r q := by
  have hlen := (List.getElem?_eq_some_iff.1 hq).1
  have hfree : holder l (tr.take q) = none := (hw q b l).1 hq
  rcases chain hw l r a ((hw r a l).2 hr) q (by omega) (by omega) with h | ⟨r', h1, h2, h | ⟨c, k, _, h3, h4, h5, h6, h7⟩⟩
  · rw [hfree] at h; cases h
  · obtain ⟨c, k, h, _⟩ := h; rw [hfree] at h; cases h
  · have hkq : HB tr k q := .single (.inr ⟨h4, l, c, b, h5, hq, fun k' d h8 h9 => h7 k' d h8 h9⟩)
    have h6 : HB tr r' q := by
      rcases h6 with rfl | h6
      · exact hkq
      · exact h6.trans hkq
    rcases Nat.lt_or_eq_of_le h1 with h | rfl
    · exact (HB.po h hr h2).trans h6
    · exact h6

theorem hb_lt {L X : Type} {tr : Tr L X} {i j : Nat} (h : HB tr i j) : i < j := by
  induction h with
  | single h => rcases h with h | h <;> exact h.1
  | tail _ h ih => rcases h with h | h <;> exact Nat.lt_trans ih h.1

/-- The invariant. (Concerns co_env.cpp:116-186, co_ctx.cpp:65-207.) -/
structure PInv (s : PSt) (tr : Tr PLk Unit) : Prop where
  st : SInv s
  wf : WF tr
  lk : ∀ l, holder l tr = s.lk l
  wr : ∀ (i a : Nat), tr[i]? = some (a, Op.wr ()) → a = 0
  pub : s.finished = true → Pub tr .st
  pubw : ∀ d, s.woken d = true → Pub tr (.flag d)
  seen1 : ∀ d, s.w d = .look ∨ s.w d = .look2 → s.finished = true → Seen tr (wAg d) .st
  seen2 : ∀ d, s.w d = .test → s.woken d = true → Seen tr (wAg d) (.flag d)
  seen : ∀ d, s.w d = .read → ∃ l, Seen tr (wAg d) l
  rdf : ∀ (j a : Nat), tr[j]? = some (a, Op.rd ()) → s.finished = true
  good : ∀ (i j a : Nat), tr[i]? = some (0, Op.wr ()) → tr[j]? = some (a, Op.rd ()) → HB tr i j

theorem pinv_init : PInv PSt.init [] where
  st := sinv_init
  wf k a l := by simp
  lk l := rfl
  wr i a h := by simp at h
  pub h := by simp [PSt.init] at h
  pubw d h := by simp [PSt.init] at h
  seen1 d h := by simp [PSt.init] at h
  seen2 d h := by simp [PSt.init] at h
  seen d h := by simp [PSt.init] at h
  rdf i a h := by simp at h
  good i j a h := by simp at h

theorem pinv_step (s s' : PSt) (a : PAct) (tr e : Tr PLk Unit) (h : PInv s tr) (hs : pstep s a = some (s', e)) : PInv s' (tr ++ e) := by
  obtain ⟨h1, h2, h3, h4, h5, h6, h7, h8, h9, h11, h10⟩ := h
  have g := sinv_step s s' a e h1 hs
  obtain ⟨f1, f2, f3, f4, f5, f6⟩ := step_facts s s' a e h1 hs
  -- the steps that do not write the result
  have rest : Quiet e → (∀ d, s'.w d = .read → ∃ l, Seen (tr ++ e) (wAg d) l) ∧ (s'.finished = true → Pub (tr ++ e) .st) ∧
      (∀ d, s'.woken d = true → Pub (tr ++ e) (.flag d)) ∧
      (∀ d, s'.w d = .look ∨ s'.w d = .look2 → s'.finished = true → Seen (tr ++ e) (wAg d) .st) ∧
      (∀ d, s'.w d = .test → s'.woken d = true → Seen (tr ++ e) (wAg d) (.flag d)) := by
    intro hq
    refine ⟨fun d hd => ?_, fun hf => ?_, fun d hd => ?_, fun d hd hf => ?_, fun d hd hf => ?_⟩
    · rcases f5 d hd with h | ⟨h, h'⟩ | ⟨h, h'⟩
      · obtain ⟨l, hl⟩ := h9 d h; exact ⟨l, hl.mono hq⟩
      · exact ⟨_, (h7 d h h').mono hq⟩
      · exact ⟨_, (h8 d h h').mono hq⟩
    · rcases f1 hf with h | rfl
      · exact (h5 h).mono hq
      · exact pub_new
    · rcases f2 d hd with h | rfl
      · exact (h6 d h).mono hq
      · exact pub_new
    · obtain ⟨h, h' | rfl⟩ := f3 d hd hf
      · exact (h7 d h' h).mono hq
      · exact seen_new (h5 h)
    · obtain ⟨h, h' | rfl⟩ := f4 d hd hf
      · exact (h8 d h' h).mono hq
      · exact seen_new (h6 d h)
  rcases step_lock s s' a e h1 hs with ⟨rfl, hl⟩ | ⟨b, l, rfl, hl, hl'⟩ | ⟨b, l, rfl, hl, hl'⟩ | ⟨rfl, hb, rfl⟩ | ⟨d, rfl, hd, rfl⟩
  · obtain ⟨r1, r2, r3, r4, r5⟩ := rest (by simp [Quiet])
    rw [List.append_nil] at *
    exact ⟨g, h2, fun l => by rw [h3, hl], h4, r2, r3, r4, r5, r1, fun j c hj => f6 (h11 j c hj), h10⟩
  · obtain ⟨r1, r2, r3, r4, r5⟩ := rest (by simp [Quiet])
    refine ⟨g, WF.snoc h2 _ (fun k hk => ?_) (fun k hk => by cases hk), fun k => ?_, fun i c hi => ?_, r2, r3, r4, r5, r1, fun j c hj => ?_, fun i j c hi hj => ?_⟩
    · cases hk; rw [h3, hl]
    · rw [holder_snoc, hl', h3]; simp only [eq_comm]
    · rcases getElem?_snoc _ _ _ _ hi with ⟨_, hi⟩ | ⟨_, hi⟩
      · exact h4 i c hi
      · cases hi
    · rcases getElem?_snoc _ _ _ _ hj with ⟨_, hj⟩ | ⟨_, hj⟩
      · exact f6 (h11 j c hj)
      · cases hj
    · rcases getElem?_snoc _ _ _ _ hi with ⟨_, hi⟩ | ⟨_, hi⟩
      · rcases getElem?_snoc _ _ _ _ hj with ⟨_, hj⟩ | ⟨_, hj⟩
        · exact hb_mono _ (h10 i j c hi hj)
        · cases hj
      · cases hi
  · obtain ⟨r1, r2, r3, r4, r5⟩ := rest (by simp [Quiet])
    refine ⟨g, WF.snoc h2 _ (fun k hk => by cases hk) (fun k hk => ?_), fun k => ?_, fun i c hi => ?_, r2, r3, r4, r5, r1, fun j c hj => ?_, fun i j c hi hj => ?_⟩
    · cases hk; rw [h3, hl]
    · rw [holder_snoc, hl', h3]; simp only [eq_comm]
    · rcases getElem?_snoc _ _ _ _ hi with ⟨_, hi⟩ | ⟨_, hi⟩
      · exact h4 i c hi
      · cases hi
    · rcases getElem?_snoc _ _ _ _ hj with ⟨_, hj⟩ | ⟨_, hj⟩
      · exact f6 (h11 j c hj)
      · cases hj
    · rcases getElem?_snoc _ _ _ _ hi with ⟨_, hi⟩ | ⟨_, hi⟩
      · rcases getElem?_snoc _ _ _ _ hj with ⟨_, hj⟩ | ⟨_, hj⟩
        · exact hb_mono _ (h10 i j c hi hj)
        · cases hj
      · cases hi
  · -- a write: nobody has read or will read yet
    have hnf : s'.finished = false := h1.early (.inl hb)
    have hnr : ∀ d, s'.w d ≠ .read := fun d hd => by have := h1.read d hd; rw [hnf] at this; cases this
    have hnw : ∀ d, s'.woken d ≠ true := fun d hd => by have := h1.woke d hd; rw [hnf] at this; cases this
    refine ⟨g, WF.snoc h2 _ (fun k hk => by cases hk) (fun k hk => by cases hk), fun k => ?_, fun i c hi => ?_, fun h => ?_, fun d h => ?_,
      fun d _ h => ?_, fun d _ h => ?_, fun d h => ?_, fun j c hj => ?_, fun i j c hi hj => ?_⟩
    · rw [holder_snoc, h3]
    · rcases getElem?_snoc _ _ _ _ hi with ⟨_, hi⟩ | ⟨_, hi⟩
      · exact h4 i c hi
      · cases hi; rfl
    · rw [hnf] at h; cases h
    · exact absurd h (hnw d)
    · rw [hnf] at h; cases h
    · exact absurd h (hnw d)
    · exact absurd h (hnr d)
    · rcases getElem?_snoc _ _ _ _ hj with ⟨_, hj⟩ | ⟨_, hj⟩
      · exact h11 j c hj
      · cases hj
    · rcases getElem?_snoc _ _ _ _ hj with ⟨_, hj⟩ | ⟨_, hj⟩
      · have := h11 j c hj; rw [hnf] at this; cases this
      · cases hj
  · obtain ⟨r1, r2, r3, r4, r5⟩ := rest (by simp [Quiet])
    have hw' : WF (tr ++ [(wAg d, Op.rd ())]) := WF.snoc h2 _ (fun k hk => by cases hk) (fun k hk => by cases hk)
    refine ⟨g, hw', fun k => ?_, fun i c hi => ?_, r2, r3, r4, r5, r1, fun j c hj => ?_, fun i j c hi hj => ?_⟩
    · rw [holder_snoc, h3]
    · rcases getElem?_snoc _ _ _ _ hi with ⟨_, hi⟩ | ⟨_, hi⟩
      · exact h4 i c hi
      · cases hi
    · rcases getElem?_snoc _ _ _ _ hj with ⟨_, hj⟩ | ⟨_, hj⟩
      · exact f6 (h11 j c hj)
      · exact h1.read d hd
    · rcases getElem?_snoc _ _ _ _ hi with ⟨_, hi'⟩ | ⟨_, hi'⟩
      · rcases getElem?_snoc _ _ _ _ hj with ⟨_, hj'⟩ | ⟨hj0, hj'⟩
        · exact hb_mono _ (h10 i j c hi' hj')
        · cases hj'
          obtain ⟨l, r, q, s1, s2, s3, s4⟩ := h9 d hd
          have hq := (List.getElem?_eq_some_iff.1 s4).1
          exact ((HB.po (s3 i hi') hi (Publish.mono _ _ _ s2)).trans (rel_acq hw' s1 (Publish.mono _ _ _ s2) (Publish.mono _ _ _ s4))).trans
            (HB.po (by omega) (Publish.mono _ _ _ s4) hj)
      · cases hi'

theorem pinv (as : List PAct) : ∀ (s s' : PSt) (tr es : Tr PLk Unit), PInv s tr → runs pstep s as = some (s', es) → PInv s' (tr ++ es) := by
  induction as with
  | nil => intro s s' tr es hI h; simp [runs] at h; obtain ⟨rfl, rfl⟩ := h; simpa using hI
  | cons a as ih =>
    intro s s' tr es hI h
    obtain ⟨s1, e1, e2, hs, hr, rfl⟩ := runs_cons h
    rw [← List.append_assoc]
    exact ih _ _ _ _ (pinv_step _ _ _ _ _ hI hs) hr

/-- **C107 (results are published).** Whoever reads the result of a coroutine after `wait()`, or after a `wait_for()` that did not time out,
reads it after the coroutine wrote it for the last time, in the order of happens-before: there is no data race on the result, and every write
is visible to every reader. For any number of waiters, with and without time-outs, in every interleaving. -/
theorem C107_result_published (as : List PAct) (s : PSt) (tr : Tr PLk Unit) (h : runs pstep PSt.init as = some (s, tr)) :
    ¬ Race tr () ∧ ∀ (i j a b : Nat), tr[i]? = some (a, Op.wr ()) → tr[j]? = some (b, Op.rd ()) → HB tr i j := by
  have hI := pinv as PSt.init s [] tr pinv_init h
  simp only [List.nil_append] at hI
  have hg : ∀ (i j a b : Nat), tr[i]? = some (a, Op.wr ()) → tr[j]? = some (b, Op.rd ()) → HB tr i j := fun i j a b hi hj => by
    have := hI.wr i a hi; subst this; exact hI.good i j b hi hj
  refine ⟨?_, hg⟩
  rintro ⟨i, j, a, b, p, q, hij, hi, hj, hab, hp, hq, hpq, hn⟩
  rcases hp with rfl | rfl <;> rcases hq with rfl | rfl
  · simp at hpq
  · have := hb_lt (hg j i b a hj hi); omega
  · exact hn (hg i j a b hi hj)
  · exact hab ((hI.wr i a hi).trans (hI.wr j b hj).symm)

/-- A waiter that slept and was woken by the end of the coroutine, one whose time-out and the end came together, and one that came later; all of
them read. -/
example : ∃ s tr, runs pstep PSt.init
    [.call 0 false, .run 0, .run 0, .run 0, .run 0, .call 1 true, .run 1, .run 1, .run 1, .run 1, .write, .tick 1, .fin 0, .fin 0, .fin 0, .tick 1,
      .fin 0, .fin 0, .run 0, .run 0, .run 0, .run 1, .run 1, .run 1, .run 1, .run 1, .call 2 false, .run 2, .run 2, .run 2] = some (s, tr) ∧
    (0, Op.wr ()) ∈ tr ∧ (wAg 0, Op.rd ()) ∈ tr ∧ (wAg 1, Op.rd ()) ∈ tr ∧ (wAg 2, Op.rd ()) ∈ tr :=
  ⟨_, _, rfl, by decide⟩

end Verif.Publish
