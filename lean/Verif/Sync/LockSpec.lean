import Verif.Base.Lts

/-!
# What a lock must do: specification automata over observable events

These do not mention any of the lock models. They are used to state C01, C02, C03, C08, C09.
-/

namespace Verif.LockSpec

/-- Observable events of an exclusive lock. (Concerns co_mutex.cpp:18-108, co_spinlock.cpp:10-28.) -/
inductive Ev
  /-- `lock()` of coroutine `t` returned, or its `try_lock()` returned true -/
  | acq (t : Tid)
  /-- `try_lock()` of `t` returned false -/
  | tryFail (t : Tid)
  /-- `t` called `unlock()` -/
  | unlockCall (t : Tid)
  /-- `unlock()` of `t` returned normally (`ok = true`) or threw (`ok = false`) -/
  | unlockRet (t : Tid) (ok : Bool)
  deriving DecidableEq, Repr

/-- The specification state: who is in the critical section (between a returned `lock()` and the
call of `unlock()`), and for each coroutine inside `unlock()` whether it was the holder when it
called. (Concerns co_mutex.cpp:18-108, co_spinlock.cpp:10-28.) -/
structure Q where
  cs : Option Tid
  pend : Tid → Option Bool

/-- Nobody is in the critical section. (Concerns co_mutex.cpp:18-108, co_spinlock.cpp:10-28.) -/
def Q.init : Q := ⟨none, fun _ => none⟩

/-- One coroutine at a time; an `unlock()` succeeds exactly if its caller was the holder. (Concerns co_mutex.cpp:18-108, co_spinlock.cpp:10-28.) -/
def acc (q : Q) : Ev → Option Q
  | .acq t => if q.cs = none then some { q with cs := some t } else none
  | .tryFail _ => some q
  | .unlockCall t =>
    if q.cs = some t then some { cs := none, pend := upd q.pend t (some true) }
    else some { q with pend := upd q.pend t (some false) }
  | .unlockRet t ok =>
    if q.pend t = some ok then some { q with pend := upd q.pend t none } else none

/-- The trace is one a correct lock may produce. (Concerns co_mutex.cpp:18-108, co_spinlock.cpp:10-28.) -/
def Correct (es : List Ev) : Prop := ∃ q, accepts acc Q.init es = some q

/-- Specification of a recursive lock: the holder and its nesting depth. (Concerns co_mutex.cpp:18-108, co_spinlock.cpp:10-28.) -/
structure RQ where
  holder : Option Tid
  depth : Nat
  pend : Tid → Option Bool

/-- Specification: the initial state. (Concerns co_mutex.cpp:18-108, co_spinlock.cpp:10-28.) -/
def RQ.init : RQ := ⟨none, 0, fun _ => none⟩

/-- The holder may acquire again; the critical section ends with the call of the matching number
of `unlock()`s; `unlock()` succeeds exactly if its caller was the holder. (Concerns co_mutex.cpp:18-108, co_spinlock.cpp:10-28.) -/
def racc (q : RQ) : Ev → Option RQ
  | .acq t =>
    if q.holder = none then some { q with holder := some t, depth := 1 }
    else if q.holder = some t then some { q with depth := q.depth + 1 }
    else none
  | .tryFail t => if q.holder = some t then none else some q
  | .unlockCall t =>
    if q.holder = some t then
      some { holder := if q.depth = 1 then none else some t,
             depth := q.depth - 1, pend := upd q.pend t (some true) }
    else some { q with pend := upd q.pend t (some false) }
  | .unlockRet t ok =>
    if q.pend t = some ok then some { q with pend := upd q.pend t none } else none

/-- The trace is one a correct recursive lock may produce. (Concerns co_mutex.cpp:18-108, co_spinlock.cpp:10-28.) -/
def RCorrect (es : List Ev) : Prop := ∃ q, accepts racc RQ.init es = some q

/-- The specification is not vacuous: it accepts an alternating trace … -/
example : Correct [.acq 1, .unlockCall 1, .acq 2, .unlockRet 1 true, .unlockCall 2,
    .unlockRet 2 true] := ⟨_, rfl⟩

/-- … and rejects two coroutines inside at once, … -/
example : ¬ Correct [.acq 1, .acq 2] := by
  rintro ⟨q, h⟩; simp [accepts, acc, Q.init] at h

/-- … and a successful unlock by somebody who is not the holder. -/
example : ¬ Correct [.acq 1, .unlockCall 2, .unlockRet 2 true] := by
  rintro ⟨q, h⟩; simp [accepts, acc, Q.init] at h

/-! ## What acceptance means, read off the trace directly -/

/-- `t` is inside the critical section after the trace: its last acquisition is later than its last
call of `unlock()`. (Concerns co_mutex.cpp:18-108, co_spinlock.cpp:10-28.) -/
def inside (t : Tid) (es : List Ev) : Bool :=
  es.foldl (fun b e => match e with
    | .acq u => if u = t then true else b
    | .unlockCall u => if u = t then false else b
    | _ => b) false

theorem inside_append_one (t : Tid) (es : List Ev) (e : Ev) :
    inside t (es ++ [e]) = match e with
      | .acq u => if u = t then true else inside t es
      | .unlockCall u => if u = t then false else inside t es
      | _ => inside t es := by
  simp only [inside, List.foldl_append, List.foldl_cons, List.foldl_nil]

theorem accepts_inside (es : List Ev) : ∀ q, accepts acc Q.init es = some q →
    ∀ t, q.cs = some t ↔ inside t es = true := by
  induction es using list_snoc with
  | nil => intro q h t; simp [accepts, Q.init] at h; simp [← h, inside]
  | snoc es e ih =>
    intro q h t
    rw [accepts_append] at h
    cases h1 : accepts acc Q.init es with
    | none => simp [h1] at h
    | some q1 =>
      have ih := ih q1 h1
      have iht := ih t
      simp only [h1, Option.bind_some, accepts] at h
      rw [inside_append_one]
      cases e <;> simp only [acc] at h <;> (repeat' split at h) <;> simp at h <;>
        subst h <;> grind

theorem Correct.prefix {a b : List Ev} (h : Correct (a ++ b)) : Correct a := by
  obtain ⟨q, hq⟩ := h
  rw [accepts_append] at hq
  cases h1 : accepts acc Q.init a with
  | none => simp [h1] at hq
  | some q1 => exact ⟨q1, h1⟩

/-- A correct trace never has two coroutines inside. -/
theorem Correct.exclusive {a b : List Ev} (h : Correct (a ++ b)) {t u : Tid}
    (ht : inside t a = true) (hu : inside u a = true) : t = u := by
  obtain ⟨q, hq⟩ := h.prefix
  have h1 := (accepts_inside a q hq t).2 ht
  have h2 := (accepts_inside a q hq u).2 hu
  simpa [h1] using h2

theorem pend_stable (t : Tid) (b : List Ev) : ∀ q q' (v : Option Bool), accepts acc q b = some q' →
    q.pend t = v → .unlockCall t ∉ b → (∀ ok, .unlockRet t ok ∉ b) → q'.pend t = v := by
  induction b with
  | nil => intro q q' v h; simp [accepts] at h; simp [← h]
  | cons e b ih =>
    intro q q' v h hv h1 h2
    simp only [accepts] at h
    cases he : acc q e with
    | none => simp [he] at h
    | some q1 =>
      simp only [he, Option.bind_some] at h
      refine ih q1 q' v h ?_ (by grind) (by grind)
      cases e <;> simp only [acc] at he <;> (repeat' split at he) <;> simp at he <;>
        subst he <;> grind

/-- In a correct trace every `unlock()` succeeds exactly if its caller was inside when it called. -/
theorem Correct.unlock_outcome {a b c : List Ev} {t : Tid} {ok : Bool}
    (h : Correct (a ++ .unlockCall t :: b ++ .unlockRet t ok :: c))
    (h1 : .unlockCall t ∉ b) (h2 : ∀ ok, .unlockRet t ok ∉ b) : ok = inside t a := by
  obtain ⟨q, hq⟩ := h
  rw [List.append_assoc, accepts_append] at hq
  cases ha : accepts acc Q.init a with
  | none => simp [ha] at hq
  | some qa =>
    have hin := accepts_inside a qa ha t
    simp only [ha, Option.bind_some, List.cons_append, accepts] at hq
    cases hu : acc qa (.unlockCall t) with
    | none => simp [hu] at hq
    | some qu =>
      have hpend : qu.pend t = some (inside t a) := by
        simp only [acc] at hu
        split at hu <;> simp at hu <;> subst hu <;> grind
      simp only [hu, Option.bind_some] at hq
      rw [accepts_append] at hq
      cases hb : accepts acc qu b with
      | none => simp [hb] at hq
      | some qb =>
        have := pend_stable t b qu qb _ hb hpend h1 h2
        simp only [hb, Option.bind_some, accepts] at hq
        simp only [acc, this] at hq
        split at hq
        · rename_i hh; simpa using hh.symm
        · simp at hq

end Verif.LockSpec
