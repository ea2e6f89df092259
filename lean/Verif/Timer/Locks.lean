import Verif.Base.Lts

/-! # C70: the locks of the timers

The agents are operating system threads: number 0 is the timer thread, the others run user code or coroutines with callbacks.
The locks are `mu_timer_queue__` (`Q`) and each timer's `mutex__` (`M x`); all are recursive mutexes (co_timer.h:45,
co_manager.h:45). An agent is a list of operations still to be done. The order of the queue, the clock and the condition variable
are abstracted: any queued timer may be the first, may or may not have expired, an insertion may find an equivalent element, and
the wait may end at any time. The locks taken by `create_and_schedule_ctx` are not modelled. -/

namespace Verif.Timer.Locks

/-- Timers. (Concerns co_timer.cpp:57-139, co_manager.cpp:349-505.) -/
abbrev Id := Nat

/-- The mutexes. (Concerns co_timer.cpp:57-139, co_manager.cpp:349-505.) -/
inductive Lock
  | Q
  | M (x : Nat)
deriving DecidableEq, Repr

/-- Operations. (Concerns co_timer.cpp:57-139, co_manager.cpp:349-505.) -/
inductive Op
  | acq (l : Lock)
  | rel (l : Lock)
  /-- `if (status__ == running) return; …` (co_timer.cpp:60-66) -/
  | startTest (x : Nat)
  /-- `if (status__ == stopped) return; …` (co_timer.cpp:72-78) -/
  | stopTest (x : Nat)
  /-- the comparisons of a lookup in the set: `operator<` locks both timers in turn (co_timer.cpp:136-139, 105-109) -/
  | look (x : Nat)
  | ins (x : Nat)
  | del (x : Nat)
  /-- the callback proper (co_timer.cpp:127) -/
  | cb (x : Nat)
  /-- the head of the timer thread's loop (co_manager.cpp:353-363) -/
  | top
  /-- what the timer thread does after `is_expired` (co_manager.cpp:364-382) -/
  | decide (x : Nat)
  /-- the waits on `cv_timer_queue__` (co_manager.cpp:357, 382) -/
  | wait
deriving DecidableEq, Repr

/-- Calls a user or a callback makes. (Concerns co_timer.cpp:57-139, co_manager.cpp:349-505.) -/
inductive Call
  | start (x : Nat)
  | stop (x : Nat)
deriving DecidableEq, Repr

/-- What remains of `start` after its test, with insert_timer_to_queue__ (co_timer.cpp:64-66, co_manager.cpp:493-498). -/
def startRest (x : Nat) : List Op := [.acq .Q, .look x, .ins x, .rel .Q, .rel (.M x)]

/-- What remains of `stop` after its test, with remove_timer_from_queue__ (co_timer.cpp:77-78, co_manager.cpp:500-505). -/
def stopRest (x : Nat) : List Op := [.acq .Q, .look x, .del x, .rel .Q, .rel (.M x)]

/-- `co_timer::start`, `co_timer::stop` (co_timer.cpp:57-79). -/
def Call.ops : Call → List Op
  | .start x => [.acq (.M x), .startTest x]
  | .stop x => [.acq (.M x), .stopTest x]

/-- `co_timer::run` (co_timer.cpp:122-129): the timer is locked while the callback runs. -/
def runOps (x : Nat) : List Op := [.acq (.M x), .cb x, .rel (.M x)]

/-- `is_expired`, `expire_time` (co_timer.cpp:105-109, 116-120). -/
def peek (x : Nat) : List Op := [.acq (.M x), .rel (.M x)]

/-- The comparisons of `x` with the elements `ys` met by the search. (Concerns co_timer.cpp:57-139, co_manager.cpp:349-505.) -/
def cmps : List Nat → List Op
  | [] => []
  | y :: ys => peek y ++ cmps ys

/-- State. (co_manager.h:45, co_timer.h:45.) -/
structure State where
  ops : Nat → List Op
  held : Nat → List Lock
  own : Lock → Option Nat
  q : List Nat
  run : Nat → Bool
  pend : List Nat

/-- Update at one point. (Concerns co_timer.cpp:57-139, co_manager.cpp:349-505.) -/
def set {α : Type} (f : Nat → α) (i : Nat) (v : α) : Nat → α := fun j => if j = i then v else f j

/-- Update of the lock table. (Concerns co_timer.cpp:57-139, co_manager.cpp:349-505.) -/
def setOwn (f : Lock → Option Nat) (l : Lock) (v : Option Nat) : Lock → Option Nat := fun k => if k = l then v else f k

/-- Initially the timer thread is about to lock the queue (co_manager.cpp:351). -/
def State.init : State :=
  ⟨fun i => if i = 0 then [.acq .Q, .top] else [], fun _ => [], fun _ => none, [], fun _ => false, []⟩

/-- Unlock once. (Concerns co_timer.cpp:57-139, co_manager.cpp:349-505.) -/
def State.release (s : State) (i : Nat) (l : Lock) : State :=
  { s with held := set s.held i ((s.held i).erase l),
           own := setOwn s.own l (if l ∈ (s.held i).erase l then some i else none) }

/-- Choices of the environment. (Concerns co_timer.cpp:57-139, co_manager.cpp:349-505.) -/
inductive Act
  /-- an idle thread calls -/
  | call (i : Nat) (c : Call)
  /-- an idle thread begins to run the coroutine with the callback of `x` -/
  | runCb (i : Nat) (x : Nat)
  /-- a thread executes its next operation; `ys`, `b` and `cs` resolve what is abstracted -/
  | go (i : Nat) (ys : List Nat) (b : Bool) (cs : List Call)
deriving DecidableEq, Repr

/-- One step; there are no events. (co_manager.cpp:349-385, 493-505; co_timer.cpp:57-139.) -/
def step (loops : Nat → Bool) (s : State) (a : Act) : Option (State × List Unit) :=
  match a with
  | .call i c => if i ≠ 0 ∧ s.ops i = [] then some ({ s with ops := set s.ops i c.ops }, []) else none
  | .runCb i x =>
    if i ≠ 0 ∧ s.ops i = [] ∧ x ∈ s.pend then
      some ({ s with ops := set s.ops i (runOps x), pend := s.pend.erase x }, [])
    else none
  | .go i ys b cs =>
    match s.ops i with
    | [] => none
    | .acq l :: r =>
      if s.own l = none ∨ s.own l = some i then
        some ({ s with ops := set s.ops i r, held := set s.held i (l :: s.held i), own := setOwn s.own l (some i) }, [])
      else none
    | .rel l :: r => some ({ s with ops := set s.ops i r }.release i l, [])
    | .startTest x :: r =>
      if s.run x then some ({ s with ops := set s.ops i (.rel (.M x) :: r) }, [])
      else some ({ s with ops := set s.ops i (startRest x ++ r), run := set s.run x true }, [])
    | .stopTest x :: r =>
      if s.run x then some ({ s with ops := set s.ops i (stopRest x ++ r), run := set s.run x false }, [])
      else some ({ s with ops := set s.ops i (.rel (.M x) :: r) }, [])
    | .look x :: r =>
      if ∀ y ∈ ys, y ∈ s.q ∨ y = x then some ({ s with ops := set s.ops i (cmps ys ++ r) }, []) else none
    | .ins x :: r => some ({ s with ops := set s.ops i r, q := if b then x :: s.q else s.q }, [])
    | .del _ :: r => some ({ s with ops := set s.ops i r, q := s.q.filter (· ∉ ys) }, [])
    | .cb _ :: r => some ({ s with ops := set s.ops i (cs.flatMap Call.ops ++ r) }, [])
    | .top :: r =>
      match ys with
      | [] => if s.q = [] then some ({ s with ops := set s.ops i (.wait :: .top :: r) }, []) else none
      | x :: _ => if x ∈ s.q then some ({ s with ops := set s.ops i (peek x ++ .decide x :: .top :: r) }, []) else none
    | .decide x :: r =>
      if b then
        some ({ s with pend := x :: s.pend,
                       ops := set s.ops i ((Call.stop x).ops ++ (if loops x then (Call.start x).ops else []) ++ r) }, [])
      else some ({ s with ops := set s.ops i (peek x ++ .wait :: r) }, [])
    | .wait :: r => some ({ s with ops := set s.ops i (.acq .Q :: r) }.release i .Q, [])

/-- Agent `i` waits for a lock held by `j`. (Concerns co_timer.cpp:57-139, co_manager.cpp:349-505.) -/
def Waits (s : State) (i j : Nat) : Prop := ∃ l r, s.ops i = .acq l :: r ∧ s.own l = some j ∧ j ≠ i

/-- A deadlock: agents each of which waits for another one of them. (Concerns co_timer.cpp:57-139, co_manager.cpp:349-505.) -/
def Deadlock (s : State) (D : List Nat) : Prop := D ≠ [] ∧ ∀ i ∈ D, ∃ j ∈ D, Waits s i j

/-! ## Ownership -/

/-- Proof device: the owner of a lock is the agent that holds it. (Concerns co_timer.cpp:57-139, co_manager.cpp:349-505.) -/
def Own (s : State) : Prop := ∀ l i, s.own l = some i ↔ l ∈ s.held i

theorem own_acq {s : State} (hO : Own s) {i : Nat} {l : Lock} (h : s.own l = none ∨ s.own l = some i) (o : Nat → List Op) :
    Own { s with ops := o, held := set s.held i (l :: s.held i), own := setOwn s.own l (some i) } := by
  intro k j
  simp only [setOwn, set]
  by_cases hk : k = l <;> by_cases hj : j = i
  · simp [hk, hj]
  · simp only [hk, hj, if_true, if_false, Option.some.injEq]
    constructor
    · intro h; exact absurd h.symm hj
    · intro hm
      have := (hO l j).2 hm
      rcases h with h | h <;> rw [h] at this <;> simp at this
      exact absurd this.symm hj
  · simp only [hk, hj, if_true, if_false, List.mem_cons, false_or]
    exact hO k i
  · simp only [hk, hj, if_false]
    exact hO k j

theorem own_release {s : State} (hO : Own s) (i : Nat) {l : Lock} (hl : l ∈ s.held i) : Own (s.release i l) := by
  intro k j
  simp only [State.release, setOwn, set]
  have h0 := (hO l i).2 hl
  by_cases hk : k = l <;> by_cases hj : j = i
  · subst hk; subst hj
    simp only [if_true]
    split <;> simp_all
  · subst hk
    simp only [hj, if_true, if_false]
    constructor
    · intro h
      split at h
      · simp at h; exact absurd h.symm hj
      · simp at h
    · intro hm
      have := (hO k j).2 hm
      rw [h0] at this
      simp at this
      exact absurd this.symm hj
  · subst hj
    simp only [hk, if_true, if_false]
    rw [hO k j, List.mem_erase_of_ne hk]
  · simp only [hk, hj, if_false]
    exact hO k j

/-! ## Locks are released by their owners, in the opposite order -/

/-- Proof device: what the remaining operations of an agent expect it to hold. (Concerns co_timer.cpp:57-139, co_manager.cpp:349-505.) -/
def bal : List Op → List Lock → Prop
  | [], h => h = []
  | .acq l :: r, h => bal r (l :: h)
  | .rel l :: r, h => ∃ h', h = l :: h' ∧ bal r h'
  | .startTest x :: r, h => ∃ h', h = .M x :: h' ∧ bal r h'
  | .stopTest x :: r, h => ∃ h', h = .M x :: h' ∧ bal r h'
  | .top :: r, h => h = [.Q] ∧ r = []
  | .wait :: r, h => h = [.Q] ∧ bal r h
  | .look _ :: r, h => bal r h
  | .ins _ :: r, h => bal r h
  | .del _ :: r, h => bal r h
  | .cb _ :: r, h => bal r h
  | .decide _ :: r, h => h = [.Q] ∧ bal r h

theorem bal_cmps {r : List Op} {h : List Lock} (hb : bal r h) : ∀ ys, bal (cmps ys ++ r) h
  | [] => hb
  | y :: ys => ⟨h, rfl, bal_cmps hb ys⟩

theorem bal_calls {r : List Op} {h : List Lock} (hb : bal r h) : ∀ cs : List Call, bal (cs.flatMap Call.ops ++ r) h
  | [] => hb
  | .start x :: cs => ⟨h, rfl, bal_calls hb cs⟩
  | .stop x :: cs => ⟨h, rfl, bal_calls hb cs⟩

/-- Proof device: ownership and balance. (Concerns co_timer.cpp:57-139, co_manager.cpp:349-505.) -/
structure Base (s : State) : Prop where
  own : Own s
  bal : ∀ i, bal (s.ops i) (s.held i)

theorem base_same {s s' : State} (hB : Base s) (i : Nat) (hown : s'.own = s.own) (hheld : s'.held = s.held)
    {o : List Op} (hops : s'.ops = set s.ops i o) (hb : Locks.bal o (s.held i)) : Base s' := by
  refine ⟨?_, ?_⟩
  · intro l j; rw [hown, hheld]; exact hB.own l j
  · intro j
    rw [hops, hheld]
    simp only [set]
    split
    · rename_i hj; rw [hj]; exact hb
    · exact hB.bal j

theorem base_release {s s' : State} (hB : Base s) (i : Nat) {l : Lock} {h : List Lock} (hh : s.held i = l :: h) {o : List Op}
    (hs : s' = ({ s with ops := set s.ops i o } : State).release i l) (hb : Locks.bal o h) : Base s' := by
  subst hs
  refine ⟨own_release (s := { s with ops := set s.ops i o }) (by exact hB.own) i (by show l ∈ s.held i; rw [hh]; simp), ?_⟩
  intro j
  simp only [State.release, set]
  split
  · rename_i hj; rw [hh]; simpa using hb
  · exact hB.bal j

theorem base_step (loops : Nat → Bool) {s s' : State} {a : Act} {es : List Unit} (hB : Base s)
    (hs : step loops s a = some (s', es)) : Base s' := by
  cases a with
  | call i c =>
    simp only [step] at hs
    split at hs
    · rename_i hc
      simp only [Option.some.injEq, Prod.mk.injEq] at hs
      obtain ⟨rfl, rfl⟩ := hs
      have h0 := hB.bal i
      rw [hc.2] at h0
      have h0 : s.held i = [] := h0
      refine base_same hB i rfl rfl rfl ?_
      rw [h0]
      cases c <;> exact ⟨[], rfl, rfl⟩
    · simp at hs
  | runCb i x =>
    simp only [step] at hs
    split at hs
    · rename_i hc
      simp only [Option.some.injEq, Prod.mk.injEq] at hs
      obtain ⟨rfl, rfl⟩ := hs
      have h0 := hB.bal i
      rw [hc.2.1] at h0
      have h0 : s.held i = [] := h0
      refine base_same hB i rfl rfl rfl ?_
      rw [h0]
      exact ⟨[], rfl, rfl⟩
    · simp at hs
  | go i ys b cs =>
    have h0 := hB.bal i
    simp only [step] at hs
    split at hs
    · simp at hs
    · rename_i l r ho
      rw [ho] at h0
      split at hs
      · rename_i hf
        simp only [Option.some.injEq, Prod.mk.injEq] at hs
        obtain ⟨rfl, rfl⟩ := hs
        refine ⟨own_acq hB.own hf _, ?_⟩
        intro j
        simp only [set]
        split
        · exact h0
        · exact hB.bal j
      · simp at hs
    · rename_i l r ho
      rw [ho] at h0
      obtain ⟨h', hh, hb⟩ := h0
      simp only [Option.some.injEq, Prod.mk.injEq] at hs
      obtain ⟨rfl, rfl⟩ := hs
      exact base_release hB i hh rfl hb
    · rename_i x r ho
      rw [ho] at h0
      obtain ⟨h', hh, hb⟩ := h0
      split at hs <;> simp only [Option.some.injEq, Prod.mk.injEq] at hs <;> obtain ⟨rfl, rfl⟩ := hs
      · exact base_same hB i rfl rfl rfl (by rw [hh]; exact ⟨h', rfl, hb⟩)
      · exact base_same hB i rfl rfl rfl (by rw [hh]; exact ⟨_, rfl, _, rfl, hb⟩)
    · rename_i x r ho
      rw [ho] at h0
      obtain ⟨h', hh, hb⟩ := h0
      split at hs <;> simp only [Option.some.injEq, Prod.mk.injEq] at hs <;> obtain ⟨rfl, rfl⟩ := hs
      · exact base_same hB i rfl rfl rfl (by rw [hh]; exact ⟨_, rfl, _, rfl, hb⟩)
      · exact base_same hB i rfl rfl rfl (by rw [hh]; exact ⟨h', rfl, hb⟩)
    · rename_i x r ho
      rw [ho] at h0
      split at hs
      · simp only [Option.some.injEq, Prod.mk.injEq] at hs
        obtain ⟨rfl, rfl⟩ := hs
        exact base_same hB i rfl rfl rfl (bal_cmps (r := r) h0 ys)
      · simp at hs
    · rename_i x r ho
      rw [ho] at h0
      simp only [Option.some.injEq, Prod.mk.injEq] at hs
      obtain ⟨rfl, rfl⟩ := hs
      exact base_same hB i rfl rfl rfl h0
    · rename_i x r ho
      rw [ho] at h0
      simp only [Option.some.injEq, Prod.mk.injEq] at hs
      obtain ⟨rfl, rfl⟩ := hs
      exact base_same hB i rfl rfl rfl h0
    · rename_i x r ho
      rw [ho] at h0
      simp only [Option.some.injEq, Prod.mk.injEq] at hs
      obtain ⟨rfl, rfl⟩ := hs
      exact base_same hB i rfl rfl rfl (bal_calls (r := r) h0 cs)
    · rename_i r ho
      rw [ho] at h0
      obtain ⟨hh, rfl⟩ := h0
      split at hs
      · split at hs
        · simp only [Option.some.injEq, Prod.mk.injEq] at hs
          obtain ⟨rfl, rfl⟩ := hs
          exact base_same hB i rfl rfl rfl (by rw [hh]; exact ⟨rfl, rfl, rfl⟩)
        · simp at hs
      · split at hs
        · simp only [Option.some.injEq, Prod.mk.injEq] at hs
          obtain ⟨rfl, rfl⟩ := hs
          exact base_same hB i rfl rfl rfl (by rw [hh]; exact ⟨_, rfl, rfl, rfl, rfl⟩)
        · simp at hs
    · rename_i x r ho
      rw [ho] at h0
      obtain ⟨hh, h0⟩ := h0
      split at hs
      · simp only [Option.some.injEq, Prod.mk.injEq] at hs
        obtain ⟨rfl, rfl⟩ := hs
        refine base_same hB i rfl rfl rfl ?_
        refine ⟨_, rfl, ?_⟩
        split
        · exact ⟨_, rfl, h0⟩
        · exact h0
      · simp only [Option.some.injEq, Prod.mk.injEq] at hs
        obtain ⟨rfl, rfl⟩ := hs
        refine base_same hB i rfl rfl rfl ?_
        exact ⟨_, rfl, hh, h0⟩
    · rename_i r ho
      rw [ho] at h0
      obtain ⟨hh, hb⟩ := h0
      simp only [Option.some.injEq, Prod.mk.injEq] at hs
      obtain ⟨rfl, rfl⟩ := hs
      exact base_release hB i hh rfl (by show Locks.bal r [.Q]; rw [← hh]; exact hb)

theorem base_init : Base State.init := by
  refine ⟨by intro l i; simp [State.init], ?_⟩
  intro i
  simp only [State.init]
  split
  · exact ⟨rfl, rfl⟩
  · rfl

theorem base_runs (loops : Nat → Bool) (as : List Act) (s : State) (es : List Unit)
    (h : runs (step loops) State.init as = some (s, es)) : Base s :=
  runs_inv (step := step loops) Base (fun _ _ _ _ hI hs => base_step loops hI hs) as _ s es base_init h

/-- **C70.** No thread ever unlocks a mutex it does not hold. -/
theorem C70_unlock_by_owner (loops : Nat → Bool) (as : List Act) (s : State) (es : List Unit)
    (h : runs (step loops) State.init as = some (s, es)) (i : Nat) (l : Lock) (r : List Op)
    (ho : s.ops i = .rel l :: r) : s.own l = some i := by
  have hB := base_runs loops as s es h
  have := hB.bal i
  rw [ho] at this
  obtain ⟨h', hh, _⟩ := this
  exact (hB.own l i).2 (by rw [hh]; simp)

/-! ## Deadlocks are permanent -/

/-- A step is taken by one agent; it changes neither the operations nor the locks of the others. -/
theorem step_local (loops : Nat → Bool) {s s' : State} {a : Act} {es : List Unit} (hB : Base s)
    (hs : step loops s a = some (s', es)) :
    ∃ k, (s.ops k = [] ∨ ∃ ys b cs, a = .go k ys b cs) ∧ (∀ i, i ≠ k → s'.ops i = s.ops i) ∧
      (∀ l i, i ≠ k → s.own l = some i → s'.own l = some i) := by
  have hrel : ∀ (i : Nat) (l : Lock) (o : List Op), s.own l = some i →
      (∀ j, j ≠ i → (({ s with ops := set s.ops i o } : State).release i l).ops j = s.ops j) ∧
      (∀ l' j, j ≠ i → s.own l' = some j → (({ s with ops := set s.ops i o } : State).release i l).own l' = some j) := by
    intro i l o ho
    refine ⟨fun j hj => by simp [State.release, set, hj], ?_⟩
    intro l' j hj ho'
    simp only [State.release, setOwn]
    split
    · rename_i he
      rw [he, ho] at ho'
      simp at ho'
      exact absurd ho'.symm hj
    · exact ho'
  cases a with
  | call i c =>
    refine ⟨i, ?_⟩
    simp only [step] at hs
    split at hs
    · rename_i hc
      simp only [Option.some.injEq, Prod.mk.injEq] at hs
      obtain ⟨rfl, rfl⟩ := hs
      exact ⟨.inl hc.2, fun j hj => by simp [set, hj], fun l j _ h => h⟩
    · simp at hs
  | runCb i x =>
    refine ⟨i, ?_⟩
    simp only [step] at hs
    split at hs
    · rename_i hc
      simp only [Option.some.injEq, Prod.mk.injEq] at hs
      obtain ⟨rfl, rfl⟩ := hs
      exact ⟨.inl hc.2.1, fun j hj => by simp [set, hj], fun l j _ h => h⟩
    · simp at hs
  | go i ys b cs =>
    refine ⟨i, .inr ⟨ys, b, cs, rfl⟩, ?_⟩
    have h0 := hB.bal i
    simp only [step] at hs
    split at hs
    · simp at hs
    · split at hs
      · rename_i hf
        simp only [Option.some.injEq, Prod.mk.injEq] at hs
        obtain ⟨rfl, rfl⟩ := hs
        refine ⟨fun j hj => by simp [set, hj], ?_⟩
        intro l' j hj ho
        simp only [setOwn]
        split
        · rename_i he
          subst he
          rcases hf with hf | hf <;> rw [ho] at hf <;> simp at hf
          exact absurd hf hj
        · exact ho
      · simp at hs
    · rename_i l r ho
      rw [ho] at h0
      obtain ⟨h', hh, hb⟩ := h0
      simp only [Option.some.injEq, Prod.mk.injEq] at hs
      obtain ⟨rfl, rfl⟩ := hs
      exact hrel i l r ((hB.own l i).2 (by rw [hh]; simp))
    · split at hs <;> simp only [Option.some.injEq, Prod.mk.injEq] at hs <;> obtain ⟨rfl, rfl⟩ := hs <;>
        exact ⟨fun j hj => by simp [set, hj], fun l j _ h => h⟩
    · split at hs <;> simp only [Option.some.injEq, Prod.mk.injEq] at hs <;> obtain ⟨rfl, rfl⟩ := hs <;>
        exact ⟨fun j hj => by simp [set, hj], fun l j _ h => h⟩
    · split at hs <;> simp only [Option.some.injEq, Prod.mk.injEq, reduceCtorEq] at hs <;> obtain ⟨rfl, rfl⟩ := hs <;>
        exact ⟨fun j hj => by simp [set, hj], fun l j _ h => h⟩
    · simp only [Option.some.injEq, Prod.mk.injEq] at hs
      obtain ⟨rfl, rfl⟩ := hs
      exact ⟨fun j hj => by simp [set, hj], fun l j _ h => h⟩
    · simp only [Option.some.injEq, Prod.mk.injEq] at hs
      obtain ⟨rfl, rfl⟩ := hs
      exact ⟨fun j hj => by simp [set, hj], fun l j _ h => h⟩
    · simp only [Option.some.injEq, Prod.mk.injEq] at hs
      obtain ⟨rfl, rfl⟩ := hs
      exact ⟨fun j hj => by simp [set, hj], fun l j _ h => h⟩
    · split at hs <;> split at hs <;> simp only [Option.some.injEq, Prod.mk.injEq, reduceCtorEq] at hs <;>
        obtain ⟨rfl, rfl⟩ := hs <;> exact ⟨fun j hj => by simp [set, hj], fun l j _ h => h⟩
    · split at hs <;> simp only [Option.some.injEq, Prod.mk.injEq] at hs <;> obtain ⟨rfl, rfl⟩ := hs <;>
        exact ⟨fun j hj => by simp [set, hj], fun l j _ h => h⟩
    · rename_i r ho
      rw [ho] at h0
      simp only [Option.some.injEq, Prod.mk.injEq] at hs
      obtain ⟨rfl, rfl⟩ := hs
      exact hrel i .Q _ ((hB.own .Q i).2 (by rw [h0.1]; simp))

/-- **C70.** A deadlock never goes away: no member of it ever takes another step. -/
theorem C70_deadlock_permanent (loops : Nat → Bool) (as0 : List Act) (s : State) (es0 : List Unit)
    (h0 : runs (step loops) State.init as0 = some (s, es0)) (D : List Nat) (hD : Deadlock s D)
    (as : List Act) (s' : State) (es : List Unit) (h : runs (step loops) s as = some (s', es)) :
    Deadlock s' D ∧ ∀ i ∈ D, s'.ops i = s.ops i := by
  have := runs_inv (step := step loops) (fun u => Base u ∧ Deadlock u D ∧ ∀ i ∈ D, u.ops i = s.ops i)
    (by
      rintro u a u' es ⟨hB, hD, hU⟩ hs
      obtain ⟨k, hk, h1, h2⟩ := step_local loops hB hs
      have hkD : k ∉ D := by
        intro hkm
        obtain ⟨j, hj, l, r, h3, h4, h5⟩ := hD.2 k hkm
        rcases hk with hk | ⟨ys, b, cs, rfl⟩
        · rw [h3] at hk; simp at hk
        · simp only [step, h3, h4] at hs
          split at hs
          · rename_i hf
            rcases hf with hf | hf
            · simp at hf
            · simp at hf; exact h5 hf
          · simp at hs
      have h1' : ∀ i ∈ D, u'.ops i = u.ops i := fun i hi => h1 i (by rintro rfl; exact hkD hi)
      refine ⟨base_step loops hB hs, ⟨hD.1, ?_⟩, fun i hi => by rw [h1' i hi]; exact hU i hi⟩
      intro i hi
      obtain ⟨j, hj, l, r, h3, h4, h5⟩ := hD.2 i hi
      exact ⟨j, hj, l, r, by rw [h1' i hi]; exact h3, h2 l j (by rintro rfl; exact hkD hj) h4, h5⟩)
    as s s' es ⟨base_runs loops as0 s es0 h0, hD, fun _ _ => rfl⟩ h
  exact this.2

/-! ## Deadlocks are reached -/

/-- Let agent `i` take a step with no choice to make. (Concerns co_timer.cpp:57-139, co_manager.cpp:349-505.) -/
def g (i : Nat) : Act := .go i [] false []

/-- **C70, negation.** A user stops timer 7 while the timer thread asks whether it has expired: the user holds the timer and
waits for the queue, the timer thread holds the queue and waits for the timer. -/
theorem C70_deadlock_stop : ∃ s, runs (step fun _ => false) State.init
      ([.call 1 (.start 7), g 1, g 1, g 1, g 1, .go 1 [] true [], g 1, g 1] ++
       [g 0, .go 0 [7] false []] ++ [.call 1 (.stop 7), g 1, g 1]) = some (s, []) ∧ Deadlock s [0, 1] := by
  refine ⟨_, rfl, by simp, ?_⟩
  intro i hi
  simp only [List.mem_cons, List.not_mem_nil, or_false] at hi
  rcases hi with rfl | rfl
  · exact ⟨1, by simp, .M 7, _, rfl, rfl, by decide⟩
  · exact ⟨0, by simp, .Q, _, rfl, rfl, by decide⟩

/-- **C70, negation.** The callback of a repeating timer starts another timer (as `sleep_for` does) while the timer thread resets
the first one. -/
theorem C70_deadlock_callback : ∃ s, runs (step fun _ => true) State.init
      ([.call 1 (.start 7), g 1, g 1, g 1, g 1, .go 1 [] true [], g 1, g 1] ++
       [g 0, .go 0 [7] false [], g 0, g 0, .go 0 [] true []] ++ [.runCb 2 7, g 2, .go 2 [] false [.start 8], g 2, g 2]) =
      some (s, []) ∧ Deadlock s [0, 2] := by
  refine ⟨_, rfl, by simp, ?_⟩
  intro i hi
  simp only [List.mem_cons, List.not_mem_nil, or_false] at hi
  rcases hi with rfl | rfl
  · exact ⟨2, by simp, .M 7, _, rfl, rfl, by decide⟩
  · exact ⟨0, by simp, .Q, _, rfl, rfl, by decide⟩

/-- **C70, negation.** Two users suffice: one stops timer 7, the other starts timer 8, which is compared with timer 7. -/
theorem C70_deadlock_two_users : ∃ s, runs (step fun _ => false) State.init
      ([.call 1 (.start 7), g 1, g 1, g 1, g 1, .go 1 [] true [], g 1, g 1] ++
       [.call 1 (.stop 7), g 1, g 1] ++ [.call 2 (.start 8), g 2, g 2, g 2, .go 2 [7] false []]) = some (s, []) ∧
      Deadlock s [1, 2] := by
  refine ⟨_, rfl, by simp, ?_⟩
  intro i hi
  simp only [List.mem_cons, List.not_mem_nil, or_false] at hi
  rcases hi with rfl | rfl
  · exact ⟨2, by simp, .Q, _, rfl, rfl, by decide⟩
  · exact ⟨1, by simp, .M 7, _, rfl, rfl, by decide⟩

/-! ## The part that holds -/

/-- Proof device: the test of `start` or `stop`. (Concerns co_timer.cpp:57-139, co_manager.cpp:349-505.) -/
def tst (k : Bool) (x : Nat) : Op := if k then .startTest x else .stopTest x

/-- Proof device: the queue operation of `start` or `stop`. (Concerns co_timer.cpp:57-139, co_manager.cpp:349-505.) -/
def upd (k : Bool) (x : Nat) : Op := if k then .ins x else .del x

/-- Proof device: the remaining operations of a `start` or `stop` of `x`, and whether the queue operation has been done. `C z`
holds for the timers it may be compared with. (Concerns co_timer.cpp:57-139, co_manager.cpp:349-505.) -/
inductive Sub (C : Nat → Prop) (k : Bool) (x : Nat) : Bool → List Op → Prop
  | a : Sub C k x false [.acq (.M x), tst k x]
  | b : Sub C k x false [tst k x]
  | c : Sub C k x false [.acq .Q, .look x, upd k x, .rel .Q, .rel (.M x)]
  | d : Sub C k x false [.look x, upd k x, .rel .Q, .rel (.M x)]
  | e (zs : List Nat) (hz : ∀ z ∈ zs, C z) : Sub C k x false (cmps zs ++ [upd k x, .rel .Q, .rel (.M x)])
  | f (z : Nat) (zs : List Nat) (hc : C z) (hz : ∀ z ∈ zs, C z) :
      Sub C k x false (.rel (.M z) :: (cmps zs ++ [upd k x, .rel .Q, .rel (.M x)]))
  | g : Sub C k x true [.rel .Q, .rel (.M x)]
  | h : Sub C k x true [.rel (.M x)]
  | done : Sub C k x true []

theorem Sub.mono {C C' : Nat → Prop} (hC : ∀ z, C z → C' z) {k : Bool} {x : Nat} {d : Bool} {m : List Op} (h : Sub C k x d m) :
    Sub C' k x d m := by
  cases h with
  | a => exact .a
  | b => exact .b
  | c => exact .c
  | d => exact .d
  | e zs hz => exact .e zs (fun z h => hC z (hz z h))
  | f z zs hc hz => exact .f z zs (hC z hc) (fun z h => hC z (hz z h))
  | g => exact .g
  | h => exact .h
  | done => exact .done

/-- One step of a `start` or `stop`. -/
theorem sub_step (loops : Nat → Bool) {C : Nat → Prop} {k : Bool} {x : Nat} {d : Bool} {m tail : List Op} {s s' : State}
    {i : Nat} {ys : List Nat} {b : Bool} {es : List Unit} (h : Sub C k x d m) (hm : m ≠ []) (ho : s.ops i = m ++ tail)
    (hC : ∀ z ∈ s.q, C z) (hx : C x) (hs : step loops s (.go i ys b []) = some (s', es)) :
    ∃ d' m', s'.ops = set s.ops i (m' ++ tail) ∧ Sub C k x d' m' ∧ (d = true → d' = true) ∧ s'.pend = s.pend ∧
      (∀ z ∈ s'.q, z ∈ s.q ∨ (z = x ∧ d' = true)) := by
  simp only [step, ho] at hs
  cases h with
  | a =>
    simp only [List.cons_append] at hs
    split at hs
    · simp only [Option.some.injEq, Prod.mk.injEq] at hs
      obtain ⟨rfl, rfl⟩ := hs
      exact ⟨false, _, rfl, .b, by simp, rfl, fun z h => .inl h⟩
    · simp at hs
  | b =>
    cases k
    · simp only [tst, Bool.false_eq_true, if_false, List.cons_append, List.nil_append] at hs
      split at hs <;> simp only [Option.some.injEq, Prod.mk.injEq] at hs <;> obtain ⟨rfl, rfl⟩ := hs
      · exact ⟨false, _, rfl, .c, by simp, rfl, fun z h => .inl h⟩
      · exact ⟨true, [.rel (.M x)], rfl, .h, by simp, rfl, fun z h => .inl h⟩
    · simp only [tst, if_true, List.cons_append, List.nil_append] at hs
      split at hs <;> simp only [Option.some.injEq, Prod.mk.injEq] at hs <;> obtain ⟨rfl, rfl⟩ := hs
      · exact ⟨true, [.rel (.M x)], rfl, .h, by simp, rfl, fun z h => .inl h⟩
      · exact ⟨false, _, rfl, .c, by simp, rfl, fun z h => .inl h⟩
  | c =>
    simp only [List.cons_append] at hs
    split at hs
    · simp only [Option.some.injEq, Prod.mk.injEq] at hs
      obtain ⟨rfl, rfl⟩ := hs
      exact ⟨false, _, rfl, .d, by simp, rfl, fun z h => .inl h⟩
    · simp at hs
  | d =>
    simp only [List.cons_append] at hs
    split at hs
    · rename_i hys
      simp only [Option.some.injEq, Prod.mk.injEq] at hs
      obtain ⟨rfl, rfl⟩ := hs
      refine ⟨false, cmps ys ++ [upd k x, .rel .Q, .rel (.M x)], by simp, .e ys ?_, by simp, rfl, fun z h => .inl h⟩
      intro z hz
      rcases hys z hz with h | h
      · exact hC z h
      · rw [h]; exact hx
    · simp at hs
  | e zs hz =>
    cases zs with
    | nil =>
      cases k
      · simp only [upd, Bool.false_eq_true, if_false, cmps, List.cons_append, List.nil_append] at hs
        simp only [Option.some.injEq, Prod.mk.injEq] at hs
        obtain ⟨rfl, rfl⟩ := hs
        exact ⟨true, [.rel .Q, .rel (.M x)], rfl, .g, by simp, rfl, fun z h => .inl (List.mem_filter.1 h).1⟩
      · simp only [upd, if_true, cmps, List.cons_append, List.nil_append] at hs
        simp only [Option.some.injEq, Prod.mk.injEq] at hs
        obtain ⟨rfl, rfl⟩ := hs
        refine ⟨true, [.rel .Q, .rel (.M x)], rfl, .g, by simp, rfl, ?_⟩
        intro z h
        simp only at h
        split at h
        · rcases List.mem_cons.1 h with h | h
          · exact .inr ⟨h, rfl⟩
          · exact .inl h
        · exact .inl h
    | cons z zs =>
      simp only [cmps, peek, List.cons_append, List.nil_append] at hs
      split at hs
      · simp only [Option.some.injEq, Prod.mk.injEq] at hs
        obtain ⟨rfl, rfl⟩ := hs
        exact ⟨false, .rel (.M z) :: (cmps zs ++ [upd k x, .rel .Q, .rel (.M x)]), by simp,
          .f z zs (hz z (List.mem_cons_self ..)) (fun w h => hz w (List.mem_cons_of_mem _ h)), by simp, rfl, fun z h => .inl h⟩
      · simp at hs
  | f z zs hc hz =>
    simp only [List.cons_append, Option.some.injEq, Prod.mk.injEq] at hs
    obtain ⟨rfl, rfl⟩ := hs
    exact ⟨false, _, rfl, .e zs hz, by simp, rfl, fun z h => .inl h⟩
  | g =>
    simp only [List.cons_append, Option.some.injEq, Prod.mk.injEq] at hs
    obtain ⟨rfl, rfl⟩ := hs
    exact ⟨true, _, rfl, .h, by simp, rfl, fun z h => .inl h⟩
  | h =>
    simp only [List.cons_append, Option.some.injEq, Prod.mk.injEq] at hs
    obtain ⟨rfl, rfl⟩ := hs
    exact ⟨true, [], rfl, .done, by simp, rfl, fun z h => .inl h⟩
  | done => exact absurd rfl hm

/-- Proof device: the timer thread; all timers it handles satisfy `P`. (Concerns co_timer.cpp:57-139, co_manager.cpp:349-505.) -/
inductive Thr (P : Nat → Prop) : List Op → Prop
  | lock : Thr P [.acq .Q, .top]
  | top : Thr P [.top]
  | peek (x : Nat) (hx : P x) (r : List Op) (hr : r = [.decide x, .top] ∨ r = [.wait, .top]) : Thr P (.acq (.M x) :: .rel (.M x) :: r)
  | peeked (x : Nat) (hx : P x) (r : List Op) (hr : r = [.decide x, .top] ∨ r = [.wait, .top]) : Thr P (.rel (.M x) :: r)
  | decide (x : Nat) (hx : P x) : Thr P [.decide x, .top]
  | wait : Thr P [.wait, .top]
  | sub (k : Bool) (x : Nat) (hx : P x) (d : Bool) (m tail : List Op) (hm : Sub P k x d m)
      (ht : tail = [.top] ∨ tail = (Call.start x).ops ++ [.top]) : Thr P (m ++ tail)

theorem Thr.mono {P P' : Nat → Prop} (hP : ∀ z, P z → P' z) {m : List Op} (h : Thr P m) : Thr P' m := by
  cases h with
  | lock => exact .lock
  | top => exact .top
  | peek x hx r hr => exact .peek x (hP x hx) r hr
  | peeked x hx r hr => exact .peeked x (hP x hx) r hr
  | decide x hx => exact .decide x (hP x hx)
  | wait => exact .wait
  | sub k x hx d m tail hm ht => exact .sub k x (hP x hx) d m tail (hm.mono hP) ht

theorem thr_step (loops : Nat → Bool) {P : Nat → Prop} {s s' : State} {ys : List Nat} {b : Bool} {es : List Unit}
    (h : Thr P (s.ops 0)) (hq : ∀ z ∈ s.q, P z) (hp : ∀ z ∈ s.pend, P z)
    (hs : step loops s (.go 0 ys b []) = some (s', es)) :
    ∃ m, s'.ops = set s.ops 0 m ∧ Thr P m ∧ (∀ z ∈ s'.q, P z) ∧ (∀ z ∈ s'.pend, P z) := by
  generalize hops : s.ops 0 = m0 at h
  cases h with
  | lock =>
    simp only [step, hops] at hs
    split at hs
    · simp only [Option.some.injEq, Prod.mk.injEq] at hs
      obtain ⟨rfl, rfl⟩ := hs
      exact ⟨_, rfl, .top, hq, hp⟩
    · simp at hs
  | top =>
    simp only [step, hops] at hs
    split at hs
    · split at hs
      · simp only [Option.some.injEq, Prod.mk.injEq] at hs
        obtain ⟨rfl, rfl⟩ := hs
        exact ⟨_, rfl, .wait, hq, hp⟩
      · simp at hs
    · split at hs
      · rename_i x ys hx
        simp only [Option.some.injEq, Prod.mk.injEq] at hs
        obtain ⟨rfl, rfl⟩ := hs
        exact ⟨_, rfl, .peek x (hq x hx) _ (.inl rfl), hq, hp⟩
      · simp at hs
  | peek x hx r hr =>
    simp only [step, hops] at hs
    split at hs
    · simp only [Option.some.injEq, Prod.mk.injEq] at hs
      obtain ⟨rfl, rfl⟩ := hs
      exact ⟨_, rfl, .peeked x hx r hr, hq, hp⟩
    · simp at hs
  | peeked x hx r hr =>
    simp only [step, hops] at hs
    simp only [Option.some.injEq, Prod.mk.injEq] at hs
    obtain ⟨rfl, rfl⟩ := hs
    refine ⟨_, rfl, ?_, hq, hp⟩
    rcases hr with rfl | rfl
    · exact .decide x hx
    · exact .wait
  | decide x hx =>
    simp only [step, hops] at hs
    split at hs
    · simp only [Option.some.injEq, Prod.mk.injEq] at hs
      obtain ⟨rfl, rfl⟩ := hs
      refine ⟨_, rfl, ?_, hq, ?_⟩
      · rw [List.append_assoc]
        refine .sub false x hx false _ _ .a ?_
        by_cases hl : loops x = true
        · right; simp [hl]
        · left; simp [hl]
      · intro z hz
        rcases List.mem_cons.1 hz with rfl | hz
        · exact hx
        · exact hp z hz
    · simp only [Option.some.injEq, Prod.mk.injEq] at hs
      obtain ⟨rfl, rfl⟩ := hs
      exact ⟨_, rfl, .peek x hx _ (.inr rfl), hq, hp⟩
  | wait =>
    simp only [step, hops] at hs
    simp only [Option.some.injEq, Prod.mk.injEq] at hs
    obtain ⟨rfl, rfl⟩ := hs
    exact ⟨_, rfl, .lock, hq, hp⟩
  | sub k x hx d m tail hm ht =>
    by_cases hm0 : m = []
    · subst hm0
      simp only [List.nil_append] at hops
      rcases ht with rfl | rfl
      · simp only [step, hops] at hs
        split at hs
        · split at hs
          · simp only [Option.some.injEq, Prod.mk.injEq] at hs
            obtain ⟨rfl, rfl⟩ := hs
            exact ⟨_, rfl, .wait, hq, hp⟩
          · simp at hs
        · split at hs
          · rename_i x ys hx
            simp only [Option.some.injEq, Prod.mk.injEq] at hs
            obtain ⟨rfl, rfl⟩ := hs
            exact ⟨_, rfl, .peek x (hq x hx) _ (.inl rfl), hq, hp⟩
          · simp at hs
      · obtain ⟨d', m', h1, h2, _, h4, h5⟩ := sub_step loops (C := P) (k := true) (x := x) (d := false)
          (m := (Call.start x).ops) (tail := [.top]) .a (by simp [Call.ops]) hops hq hx hs
        refine ⟨_, h1, .sub true x hx d' m' _ h2 (.inl rfl), ?_, by rw [h4]; exact hp⟩
        intro z hz
        rcases h5 z hz with h | ⟨rfl, _⟩
        · exact hq z h
        · exact hx
    · obtain ⟨d', m', h1, h2, _, h4, h5⟩ := sub_step loops hm hm0 hops hq hx hs
      refine ⟨_, h1, .sub k x hx d' m' tail h2 ht, ?_, by rw [h4]; exact hp⟩
      intro z hz
      rcases h5 z hz with h | ⟨rfl, _⟩
      · exact hq z h
      · exact hx

/-- Proof device: a user's thread; `o` is the timer it is starting, if any. (Concerns co_timer.cpp:57-139, co_manager.cpp:349-505.) -/
inductive Usr (P : Nat → Prop) : Option Nat → List Op → Prop
  | idle : Usr P none []
  | run (x : Nat) (hx : P x) : Usr P none (runOps x)
  | cb (x : Nat) (hx : P x) : Usr P none [.cb x, .rel (.M x)]
  | ran (x : Nat) (hx : P x) : Usr P none [.rel (.M x)]
  | start (y : Nat) (d : Bool) (m : List Op) (hm : Sub (fun z => P z ∨ z = y) true y d m) (hd : d = false → ¬ P y) :
      Usr P (some y) m

/-- Proof device: users start each timer once and never stop one; callbacks do not use timers. `P` holds for the timers that
have been inserted, `c` are those for which `start` was called. (Concerns co_timer.cpp:57-139, co_manager.cpp:349-505.) -/
structure Tame (c : List Nat) (P : Nat → Prop) (st : Nat → Option Nat) (s : State) : Prop where
  q : ∀ z ∈ s.q, P z
  pend : ∀ z ∈ s.pend, P z
  called : ∀ z, P z → z ∈ c
  thr : Thr P (s.ops 0)
  usr : ∀ i, i ≠ 0 → Usr P (st i) (s.ops i)
  inj : ∀ i j y, i ≠ 0 → j ≠ 0 → st i = some y → st j = some y → i = j
  stc : ∀ i y, i ≠ 0 → st i = some y → y ∈ c

/-- The timers for which a thread calls `start`. (Concerns co_timer.cpp:57-139, co_manager.cpp:349-505.) -/
def Act.starts : Act → Option Nat
  | .call _ (.start x) => some x
  | _ => none

/-- Users never call `stop`, and callbacks do not use timers. (Concerns co_timer.cpp:57-139, co_manager.cpp:349-505.) -/
def Act.tame : Act → Prop
  | .call _ (.stop _) => False
  | .go _ _ _ cs => cs = []
  | _ => True

theorem tame_step (loops : Nat → Bool) {c : List Nat} {P : Nat → Prop} {st : Nat → Option Nat} {s s' : State} {a : Act}
    {es : List Unit} (h : Tame c P st s) (ht : a.tame) (hf : ∀ x, a.starts = some x → x ∉ c)
    (hs : step loops s a = some (s', es)) : ∃ P' st', Tame (c ++ a.starts.toList) P' st' s' := by
  cases a with
  | call i k =>
    cases k with
    | stop x => exact ht.elim
    | start x =>
      have hx := hf x rfl
      simp only [step] at hs
      split at hs
      · rename_i hc
        simp only [Option.some.injEq, Prod.mk.injEq] at hs
        obtain ⟨rfl, rfl⟩ := hs
        refine ⟨P, fun j => if j = i then some x else st j, h.q, h.pend, fun z hz => by simp [h.called z hz], ?_, ?_, ?_, ?_⟩
        · simpa [set, Ne.symm hc.1] using h.thr
        · intro j hj
          simp only [set]
          by_cases hji : j = i
          · simp only [hji, if_true]
            exact .start x false _ .a (fun _ hp => hx (h.called x hp))
          · simp only [hji, if_false]
            exact h.usr j hj
        · intro j k y hj hk h1 h2
          by_cases hji : j = i <;> by_cases hki : k = i <;> simp only [hji, hki, if_true, if_false] at h1 h2
          · rw [hji, hki]
          · simp at h1; rw [← h1] at h2; exact absurd (h.stc k x hk h2) hx
          · simp at h2; rw [← h2] at h1; exact absurd (h.stc j x hj h1) hx
          · exact h.inj j k y hj hk h1 h2
        · intro j y hj h1
          split at h1
          · simp at h1; simp [Act.starts, h1]
          · simp [h.stc j y hj h1]
      · simp at hs
  | runCb i x =>
    simp only [step] at hs
    split at hs
    · rename_i hc
      simp only [Option.some.injEq, Prod.mk.injEq] at hs
      obtain ⟨rfl, rfl⟩ := hs
      refine ⟨P, fun j => if j = i then none else st j, h.q, fun z hz => h.pend z (List.mem_of_mem_erase hz),
        fun z hz => by simp [h.called z hz], ?_, ?_, ?_, ?_⟩
      · simpa [set, Ne.symm hc.1] using h.thr
      · intro j hj
        simp only [set]
        by_cases hji : j = i
        · simp only [hji, if_true]
          exact .run x (h.pend x hc.2.2)
        · simp only [hji, if_false]
          exact h.usr j hj
      · intro j k y hj hk h1 h2
        split at h1
        · simp at h1
        · split at h2
          · simp at h2
          · exact h.inj j k y hj hk h1 h2
      · intro j y hj h1
        split at h1
        · simp at h1
        · simp [h.stc j y hj h1]
    · simp at hs
  | go i ys b cs =>
    have ht : cs = [] := ht
    subst ht
    simp only [Act.starts, Option.toList_none, List.append_nil]
    by_cases hi : i = 0
    · subst hi
      obtain ⟨m, h1, h2, h3, h4⟩ := thr_step loops h.thr h.q h.pend hs
      refine ⟨P, st, h3, h4, h.called, by rw [h1]; simpa [set] using h2, ?_, h.inj, h.stc⟩
      intro j hj
      rw [h1]
      simpa [set, hj] using h.usr j hj
    · have hu := h.usr i hi
      -- a step that changes nothing but the operations of `i`
      have plain : ∀ m, s'.ops = set s.ops i m → s'.q = s.q → s'.pend = s.pend → Usr P (st i) m → ∃ P' st', Tame c P' st' s' := by
        intro m h1 h2 h3 h4
        refine ⟨P, st, by rw [h2]; exact h.q, by rw [h3]; exact h.pend, h.called, by rw [h1]; simpa [set, Ne.symm hi] using h.thr,
          ?_, h.inj, h.stc⟩
        intro j hj
        rw [h1]
        simp only [set]
        split
        · rename_i e; rw [e]; exact h4
        · exact h.usr j hj
      generalize hst : st i = o at hu
      generalize hops : s.ops i = m0 at hu
      cases hu with
      | idle => simp [step, hops] at hs
      | run x hx =>
        simp only [step, hops, runOps] at hs
        split at hs
        · simp only [Option.some.injEq, Prod.mk.injEq] at hs
          obtain ⟨rfl, rfl⟩ := hs
          exact plain _ rfl rfl rfl (by rw [hst]; exact .cb x hx)
        · simp at hs
      | cb x hx =>
        simp only [step, hops] at hs
        simp only [Option.some.injEq, Prod.mk.injEq] at hs
        obtain ⟨rfl, rfl⟩ := hs
        exact plain _ rfl rfl rfl (by rw [hst]; exact .ran x hx)
      | ran x hx =>
        simp only [step, hops] at hs
        simp only [Option.some.injEq, Prod.mk.injEq] at hs
        obtain ⟨rfl, rfl⟩ := hs
        exact plain _ rfl rfl rfl (by rw [hst]; exact .idle)
      | start y d m hm hd =>
        by_cases hm0 : m0 = []
        · subst hm0; simp [step, hops] at hs
        · obtain ⟨d', m', h1, h2, h3, h4, h5⟩ := sub_step (tail := []) loops hm hm0 (by rw [hops]; simp)
            (fun z hz => .inl (h.q z hz)) (.inr rfl) hs
          simp only [List.append_nil] at h1
          by_cases hd' : d' = true
          · -- `y` is now inserted
            refine ⟨fun z => P z ∨ z = y, st, ?_, by rw [h4]; exact fun z hz => .inl (h.pend z hz), ?_, ?_, ?_, h.inj, h.stc⟩
            · intro z hz
              rcases h5 z hz with h6 | ⟨h6, _⟩
              · exact .inl (h.q z h6)
              · exact .inr h6
            · rintro z (hz | rfl)
              · exact h.called z hz
              · exact h.stc i z hi hst
            · rw [h1]
              simpa [set, Ne.symm hi] using h.thr.mono (fun z hz => .inl hz)
            · intro j hj
              rw [h1]
              simp only [set]
              split
              · rename_i e
                rw [e, hst]
                exact .start y d' m' (h2.mono fun z hz => .inl hz) (by simp [hd'])
              · rename_i e
                have hu := h.usr j hj
                generalize hstj : st j = o at hu
                generalize s.ops j = mj at hu
                cases hu with
                | idle => exact .idle
                | run x hx => exact .run x (.inl hx)
                | cb x hx => exact .cb x (.inl hx)
                | ran x hx => exact .ran x (.inl hx)
                | start w dw mw hmw hdw =>
                  refine .start w dw mj (hmw.mono ?_) ?_
                  · rintro z (hz | hz)
                    · exact .inl (.inl hz)
                    · exact .inr hz
                  · rintro hdf (hz | rfl)
                    · exact hdw hdf hz
                    · exact e (h.inj j i w hj hi hstj hst)
          · have hd0 : d = false := by
              cases d with
              | false => rfl
              | true => exact absurd (h3 rfl) hd'
            refine ⟨P, st, ?_, by rw [h4]; exact h.pend, h.called, by rw [h1]; simpa [set, Ne.symm hi] using h.thr, ?_, h.inj, h.stc⟩
            · intro z hz
              rcases h5 z hz with h6 | ⟨_, h6⟩
              · exact h.q z h6
              · exact absurd h6 hd'
            · intro j hj
              rw [h1]
              simp only [set]
              split
              · rename_i e
                rw [e, hst]
                exact .start y d' m' h2 (fun _ => hd hd0)
              · exact h.usr j hj

theorem bal_cmps_inv {r : List Op} {h : List Lock} : ∀ ys, bal (cmps ys ++ r) h → bal r h
  | [], hb => hb
  | y :: ys, hb => by
    obtain ⟨h', he, hb⟩ := hb
    simp only [List.cons.injEq, true_and] at he
    rw [← he] at hb
    exact bal_cmps_inv ys hb

/-- Proof device: a thread is not waiting. (Concerns co_timer.cpp:57-139, co_manager.cpp:349-505.) -/
def Awake (s : State) (i : Nat) : Prop := ∀ j, ¬ Waits s i j

theorem awake_of {s : State} {i : Nat} (h : ∀ l r, s.ops i ≠ .acq l :: r) : Awake s i := by
  rintro j ⟨l, r, h1, _⟩
  exact h l r h1

theorem upd_eq (k : Bool) (x : Nat) : upd k x = .ins x ∨ upd k x = .del x := by cases k <;> simp [upd]

theorem tst_eq (k : Bool) (x : Nat) : tst k x = .startTest x ∨ tst k x = .stopTest x := by cases k <;> simp [tst]

/-- Proof device: what a thread in `start` or `stop` holds. -/
theorem sub_held {C : Nat → Prop} {k : Bool} {x : Nat} {d : Bool} {m tail : List Op} {h b : List Lock} (hm : Sub C k x d m)
    (hb : bal (m ++ tail) h) (ht : ∀ h, bal tail h → h = b) :
    (m = [] ∧ h = b) ∨ (m = [.acq (.M x), tst k x] ∧ d = false ∧ h = b) ∨
    (m = [.acq .Q, .look x, upd k x, .rel .Q, .rel (.M x)] ∧ d = false ∧ h = .M x :: b) ∨
    (∃ z r, m = .acq (.M z) :: r ∧ C z ∧ d = false ∧ h = .Q :: .M x :: b) ∨
    ((∀ l r, m ≠ .acq l :: r) ∧ (∀ l ∈ b, l ∈ h) ∧ m ≠ [] ∧ (d = true ∨ .M x ∈ h) ∧
      ∀ l ∈ h, l ∈ b ∨ l = .Q ∨ l = .M x ∨ (∃ z, l = .M z ∧ C z)) := by
  have hupd : ∀ {r h}, bal (upd k x :: r) h → bal r h := by
    intro r h hb; rcases upd_eq k x with e | e <;> rw [e] at hb <;> exact hb
  cases hm with
  | a =>
    right; left
    obtain ⟨h', he, hb⟩ : ∃ h', .M x :: h = .M x :: h' ∧ bal tail h' := by
      rcases tst_eq k x with e | e <;> rw [e] at hb <;> exact hb
    simp only [List.cons.injEq, true_and] at he
    exact ⟨rfl, rfl, by rw [he]; exact ht _ hb⟩
  | b =>
    obtain ⟨h', he, hb⟩ : ∃ h', h = .M x :: h' ∧ bal tail h' := by
      rcases tst_eq k x with e | e <;> rw [e] at hb <;> exact hb
    right; right; right; right
    refine ⟨?_, by rw [he, ht _ hb]; simp +contextual, by simp, .inr (by rw [he]; simp), ?_⟩
    · intro l r; rcases tst_eq k x with e | e <;> rw [e] <;> simp
    · intro l hl
      rw [he, ht _ hb] at hl
      simp at hl
      rcases hl with hl | hl
      · exact .inr (.inr (.inl hl))
      · exact .inl hl
  | c =>
    right; right; left
    refine ⟨rfl, rfl, ?_⟩
    have hb : bal (upd k x :: ([.rel .Q, .rel (.M x)] ++ tail)) (.Q :: h) := hb
    obtain ⟨h1, he, h2, he2, hb⟩ := hupd hb
    simp only [List.cons.injEq, true_and] at he
    rw [he, he2, ht _ hb]
  | d =>
    have hb : bal (upd k x :: ([.rel .Q, .rel (.M x)] ++ tail)) h := hb
    obtain ⟨h1, he, h2, he2, hb⟩ := hupd hb
    rw [he2, ht _ hb] at he
    right; right; right; right
    refine ⟨by simp, by rw [he]; simp +contextual, by simp, .inr (by rw [he]; simp), ?_⟩
    intro l hl
    rw [he] at hl
    simp at hl
    rcases hl with hl | hl | hl
    · exact .inr (.inl hl)
    · exact .inr (.inr (.inl hl))
    · exact .inl hl
  | e zs hz =>
    have hb' : bal (upd k x :: ([.rel .Q, .rel (.M x)] ++ tail)) h := by
      rw [List.append_assoc] at hb
      exact bal_cmps_inv zs hb
    obtain ⟨h1, he, h2, he2, hb'⟩ := hupd hb'
    rw [he2, ht _ hb'] at he
    cases zs with
    | nil =>
      right; right; right; right
      refine ⟨?_, by rw [he]; simp +contextual, by simp [cmps], .inr (by rw [he]; simp), ?_⟩
      · intro l r; rcases upd_eq k x with e | e <;> rw [e] <;> simp [cmps]
      · intro l hl
        rw [he] at hl
        simp at hl
        rcases hl with hl | hl | hl
        · exact .inr (.inl hl)
        · exact .inr (.inr (.inl hl))
        · exact .inl hl
    | cons z zs => exact .inr (.inr (.inr (.inl ⟨z, _, rfl, hz z (List.mem_cons_self ..), rfl, he⟩)))
  | f z zs hc hz =>
    obtain ⟨h0, he0, hb⟩ := hb
    have hb' : bal (upd k x :: ([.rel .Q, .rel (.M x)] ++ tail)) h0 := by
      have hb : bal ((cmps zs ++ [upd k x, .rel .Q, .rel (.M x)]) ++ tail) h0 := hb
      rw [List.append_assoc] at hb
      exact bal_cmps_inv zs hb
    obtain ⟨h1, he, h2, he2, hb'⟩ := hupd hb'
    rw [he2, ht _ hb'] at he
    right; right; right; right
    refine ⟨by simp, by rw [he0, he]; simp +contextual, by simp, .inr (by rw [he0, he]; simp), ?_⟩
    intro l hl
    rw [he0, he] at hl
    simp at hl
    rcases hl with hl | hl | hl | hl
    · exact .inr (.inr (.inr ⟨z, hl, hc⟩))
    · exact .inr (.inl hl)
    · exact .inr (.inr (.inl hl))
    · exact .inl hl
  | g =>
    obtain ⟨h1, he, h2, he2, hb⟩ := hb
    rw [he2, ht _ hb] at he
    right; right; right; right
    refine ⟨by simp, by rw [he]; simp +contextual, by simp, .inl rfl, ?_⟩
    intro l hl
    rw [he] at hl
    simp at hl
    rcases hl with hl | hl | hl
    · exact .inr (.inl hl)
    · exact .inr (.inr (.inl hl))
    · exact .inl hl
  | h =>
    obtain ⟨h1, he, hb⟩ := hb
    rw [ht _ hb] at he
    right; right; right; right
    refine ⟨by simp, by rw [he]; simp +contextual, by simp, .inl rfl, ?_⟩
    intro l hl
    rw [he] at hl
    simp at hl
    rcases hl with hl | hl
    · exact .inr (.inr (.inl hl))
    · exact .inl hl
  | done => exact .inl ⟨rfl, ht _ hb⟩

theorem user_cases {P : Nat → Prop} {o : Option Nat} {m : List Op} {h : List Lock} (hu : Usr P o m) (hb : bal m h) :
    (∀ l r, m ≠ .acq l :: r) ∧ (∀ z, Lock.M z ∈ h → P z ∨ o = some z) ∨
    (∃ x r, P x ∧ m = .acq (.M x) :: r ∧ h = []) ∨
    (∃ y r, o = some y ∧ ¬ P y ∧ m = .acq (.M y) :: r ∧ h = []) ∨
    (∃ y r, o = some y ∧ ¬ P y ∧ m = .acq .Q :: r ∧ h = [.M y]) ∨
    (∃ y z r, o = some y ∧ (P z ∨ z = y) ∧ m = .acq (.M z) :: r ∧ h = [.Q, .M y]) := by
  cases hu with
  | idle => left; have : h = [] := hb; subst this; simp
  | run x hx =>
    right; left
    obtain ⟨h', he, hb⟩ := hb
    have : h' = [] := hb
    subst this
    simp only [List.cons.injEq, true_and] at he
    exact ⟨x, _, hx, rfl, he⟩
  | cb x hx =>
    left
    obtain ⟨h', rfl, hb⟩ := hb
    have : h' = [] := hb
    subst this
    refine ⟨by simp, ?_⟩
    intro z hz
    simp at hz
    rw [hz]; exact .inl hx
  | ran x hx =>
    left
    obtain ⟨h', rfl, hb⟩ := hb
    have : h' = [] := hb
    subst this
    refine ⟨by simp, ?_⟩
    intro z hz
    simp at hz
    rw [hz]; exact .inl hx
  | start y d m hm hd =>
    rcases sub_held (tail := []) (b := []) hm (by simpa using hb) (fun h hh => hh) with
      ⟨rfl, rfl⟩ | ⟨rfl, rfl, rfl⟩ | ⟨rfl, rfl, rfl⟩ | ⟨z, r, rfl, hz, rfl, rfl⟩ | ⟨h1, _, h2, h3, h4⟩
    · left; simp
    · exact .inr (.inr (.inl ⟨y, _, rfl, hd rfl, rfl, rfl⟩))
    · exact .inr (.inr (.inr (.inl ⟨y, _, rfl, hd rfl, rfl, rfl⟩)))
    · exact .inr (.inr (.inr (.inr ⟨y, z, r, rfl, hz, rfl, rfl⟩)))
    · left
      refine ⟨h1, ?_⟩
      intro z hz
      rcases h4 _ hz with h | h | h | ⟨w, h, hw⟩
      · simp at h
      · simp at h
      · simp at h; rw [h]; exact .inr rfl
      · simp at h
        rcases hw with hw | hw
        · rw [h]; exact .inl hw
        · rw [h, hw]; exact .inr rfl

theorem thr_cases {P : Nat → Prop} {m : List Op} {h : List Lock} (ht : Thr P m) (hb : bal m h) :
    (∀ z, Lock.M z ∈ h → P z) ∧ (m = [.acq .Q, .top] ∧ h = [] ∨ Lock.Q ∈ h) ∧
    ((∀ l r, m ≠ .acq l :: r) ∨ (∃ r, m = .acq .Q :: r) ∨ ∃ z r, P z ∧ m = .acq (.M z) :: r) := by
  have hQ : ∀ {x : Nat} {r : List Op} {h : List Lock}, (r = [.decide x, .top] ∨ r = [.wait, .top]) → bal r h → h = [.Q] := by
    intro x r h hr hb
    rcases hr with rfl | rfl
    · exact hb.1
    · exact hb.1
  cases ht with
  | lock =>
    obtain ⟨he, _⟩ := hb
    simp only [List.cons.injEq, true_and] at he
    subst he
    exact ⟨by simp, .inl ⟨rfl, rfl⟩, .inr (.inl ⟨_, rfl⟩)⟩
  | top =>
    obtain ⟨rfl, _⟩ := hb
    exact ⟨by simp, .inr (by simp), .inl (by simp)⟩
  | peek x hx r hr =>
    obtain ⟨h', he, hb⟩ := hb
    simp only [List.cons.injEq, true_and] at he
    have := hQ hr hb
    subst he
    subst this
    exact ⟨by simp, .inr (by simp), .inr (.inr ⟨x, _, hx, rfl⟩)⟩
  | peeked x hx r hr =>
    obtain ⟨h', rfl, hb⟩ := hb
    have := hQ hr hb
    subst this
    refine ⟨?_, .inr (by simp), .inl (by simp)⟩
    intro z hz
    simp at hz
    rw [hz]; exact hx
  | decide x hx =>
    obtain ⟨rfl, _⟩ := hb
    exact ⟨by simp, .inr (by simp), .inl (by simp)⟩
  | wait =>
    obtain ⟨rfl, _⟩ := hb
    exact ⟨by simp, .inr (by simp), .inl (by simp)⟩
  | sub k x hx d m tail hm ht =>
    have htail : ∀ h, bal tail h → h = [.Q] := by
      intro h hb
      rcases ht with rfl | rfl
      · exact hb.1
      · obtain ⟨h', he, hb⟩ := hb
        simp only [List.cons.injEq, true_and] at he
        rw [he]; exact hb.1
    rcases sub_held hm hb htail with
      ⟨rfl, rfl⟩ | ⟨rfl, rfl, rfl⟩ | ⟨rfl, rfl, rfl⟩ | ⟨z, r, rfl, hz, rfl, rfl⟩ | ⟨h1, hbase, h2, h3, h4⟩
    · refine ⟨by simp, .inr (by simp), ?_⟩
      rcases ht with rfl | rfl
      · left; simp
      · right; right; exact ⟨x, _, hx, rfl⟩
    · exact ⟨by simp, .inr (by simp), .inr (.inr ⟨x, _, hx, rfl⟩)⟩
    · exact ⟨by simpa using hx, .inr (by simp), .inr (.inl ⟨_, rfl⟩)⟩
    · exact ⟨by simpa using hx, .inr (by simp), .inr (.inr ⟨z, _, hz, rfl⟩)⟩
    · cases m with
      | nil => simp at h2
      | cons op m =>
        refine ⟨?_, ?_, .inl ?_⟩
        · intro z hz
          rcases h4 _ hz with h | h | h | ⟨w, h, hw⟩
          · simp at h
          · simp at h
          · simp at h; rw [h]; exact hx
          · simp at h; rw [h]; exact hw
        · exact .inr (hbase .Q (by simp))
        · intro l r he
          simp only [List.cons_append, List.cons.injEq] at he
          exact h1 l m (by rw [he.1])

theorem chain {c : List Nat} {P : Nat → Prop} {st : Nat → Option Nat} {s : State} (hT : Tame c P st s) (hB : Base s)
    {i j k : Nat} (h1 : Waits s i j) (h2 : Waits s j k) : Awake s k := by
  -- A: the owner of the mutex of an inserted timer who does not own the queue is awake
  have hA : ∀ k z, P z → s.own (.M z) = some k → s.own .Q ≠ some k → Awake s k := by
    intro k z hz ho hq
    have hm := (hB.own _ _).1 ho
    have hq' : Lock.Q ∉ s.held k := fun h => hq ((hB.own _ _).2 h)
    by_cases hk : k = 0
    · subst hk
      obtain ⟨_, h, _⟩ := thr_cases hT.thr (hB.bal 0)
      rcases h with ⟨_, h⟩ | h
      · rw [h] at hm; simp at hm
      · exact absurd h hq'
    · rcases user_cases (hT.usr k hk) (hB.bal k) with h | ⟨x, r, _, _, h⟩ | ⟨x, r, _, _, _, h⟩ | ⟨y, r, _, hy, _, h⟩ |
        ⟨y, w, r, _, _, _, h⟩
      · exact awake_of h.1
      · rw [h] at hm; simp at hm
      · rw [h] at hm; simp at hm
      · rw [h] at hm; simp at hm; rw [hm] at hz; exact absurd hz hy
      · rw [h] at hq'; simp at hq'
  -- B: whom the owner of the queue waits for is awake
  have hBB : ∀ j k, s.own .Q = some j → Waits s j k → Awake s k := by
    rintro j k hq ⟨l, r, ho, hl, hne⟩
    have hqk : s.own .Q ≠ some k := by rw [hq]; simp; exact fun h => hne h.symm
    have hl' : l ≠ .Q := by rintro rfl; exact hqk hl
    by_cases hj : j = 0
    · subst hj
      obtain ⟨_, _, h⟩ := thr_cases hT.thr (hB.bal 0)
      rcases h with h | ⟨r', h⟩ | ⟨z, r', hz, h⟩
      · exact absurd ho (h _ _)
      · rw [h] at ho; simp at ho; exact absurd ho.1.symm hl'
      · rw [h] at ho; simp at ho; rw [← ho.1] at hl; exact hA k z hz hl hqk
    · have hqm := (hB.own _ _).1 hq
      rcases user_cases (hT.usr j hj) (hB.bal j) with h | ⟨x, r, _, _, h⟩ | ⟨x, r, _, _, _, h⟩ | ⟨y, r, _, hy, _, h⟩ |
        ⟨y, w, r', _, hw, hm, h⟩
      · exact absurd ho (h.1 _ _)
      · rw [h] at hqm; simp at hqm
      · rw [h] at hqm; simp at hqm
      · rw [h] at hqm; simp at hqm
      · rw [hm] at ho
        simp at ho
        rw [← ho.1] at hl
        rcases hw with hw | hw
        · exact hA k w hw hl hqk
        · have : s.own (.M y) = some j := (hB.own _ _).2 (by rw [h]; simp)
          rw [hw, this] at hl
          simp at hl
          exact absurd hl.symm hne
  have h1' := h1
  obtain ⟨l, r, ho, hl, hne⟩ := h1'
  cases l with
  | Q => exact hBB j k hl h2
  | M z =>
    by_cases hq : s.own .Q = some i
    · exact absurd h2 (hBB i j hq h1 k)
    by_cases hqj : s.own .Q = some j
    · exact hBB j k hqj h2
    by_cases hz : P z
    · exact absurd h2 (hA j z hz hl hqj k)
    · exfalso
      -- a fresh timer: nobody else has its mutex
      have hmj := (hB.own _ _).1 hl
      by_cases hi : i = 0
      · subst hi
        obtain ⟨_, _, h⟩ := thr_cases hT.thr (hB.bal 0)
        rcases h with h | ⟨r', h⟩ | ⟨w, r', hw, h⟩
        · exact absurd ho (h _ _)
        · rw [h] at ho; simp at ho
        · rw [h] at ho; simp at ho; rw [ho.1] at hw; exact hz hw
      · have hsti : st i = some z := by
          rcases user_cases (hT.usr i hi) (hB.bal i) with h | ⟨x, r, hx, h, _⟩ | ⟨x, r, hst, hx, h, _⟩ | ⟨y, r, _, hy, h, _⟩ |
            ⟨y, w, r', hst, hw, h, hh⟩
          · exact absurd ho (h.1 _ _)
          · rw [h] at ho; simp at ho; rw [ho.1] at hx; exact absurd hx hz
          · rw [h] at ho; simp at ho; rw [hst, ho.1]
          · rw [h] at ho; simp at ho
          · exact absurd ((hB.own .Q i).2 (by rw [hh]; simp)) hq
        by_cases hj : j = 0
        · subst hj
          exact hz ((thr_cases hT.thr (hB.bal 0)).1 z hmj)
        · have hstj : st j = some z := by
            rcases user_cases (hT.usr j hj) (hB.bal j) with h | ⟨x, r, hx, _, h⟩ | ⟨x, r, hst, hx, _, h⟩ | ⟨y, r, hst, hy, _, h⟩ |
              ⟨y, w, r', hst, hw, _, h⟩
            · rcases h.2 z hmj with h | h
              · exact absurd h hz
              · exact h
            · rw [h] at hmj; simp at hmj
            · rw [h] at hmj; simp at hmj
            · rw [h] at hmj; simp at hmj; rw [hst, hmj]
            · rw [h] at hmj; simp at hmj; rw [hst, hmj]
          exact hne (hT.inj j i z hj hi hstj hsti)

/-- **C70, the part that holds.** If users start every timer at most once and never stop one, and no callback uses timers, there
is no deadlock. -/
theorem C70_no_deadlock_partial (loops : Nat → Bool) (as : List Act) (s : State) (es : List Unit)
    (h : runs (step loops) State.init as = some (s, es)) (ht : ∀ a ∈ as, a.tame) (hn : (as.filterMap Act.starts).Nodup)
    (D : List Nat) : ¬ Deadlock s D := by
  have key : ∀ (as : List Act) (s0 s : State) (es : List Unit) (c : List Nat) (P : Nat → Prop) (st : Nat → Option Nat),
      Tame c P st s0 → runs (step loops) s0 as = some (s, es) → (∀ a ∈ as, a.tame) → (c ++ as.filterMap Act.starts).Nodup →
      ∃ c P st, Tame c P st s := by
    intro as
    induction as with
    | nil =>
      intro s0 s es c P st hT h _ _
      simp only [runs, Option.some.injEq, Prod.mk.injEq] at h
      obtain ⟨rfl, rfl⟩ := h
      exact ⟨c, P, st, hT⟩
    | cons a as ih =>
      intro s0 s es c P st hT h ht hn
      obtain ⟨s1, e1, e2, h1, h2, rfl⟩ := runs_cons h
      have hsplit : as.filterMap Act.starts = as.filterMap Act.starts := rfl
      have hc : c ++ (a :: as).filterMap Act.starts = (c ++ a.starts.toList) ++ as.filterMap Act.starts := by
        cases ha : a.starts <;> simp [List.filterMap_cons, ha]
      rw [hc] at hn
      obtain ⟨P', st', hT'⟩ := tame_step loops hT (ht a (List.mem_cons_self ..)) (by
        intro x hx hm
        rw [hx] at hn
        have := (List.nodup_append.1 (List.nodup_append.1 hn).1).2.2 x hm x (by simp)
        exact this rfl) h1
      exact ih s1 s e2 _ P' st' hT' h2 (fun a ha => ht a (List.mem_cons_of_mem _ ha)) hn
  obtain ⟨c, P, st, hT⟩ := key as State.init s es [] (fun _ => False) (fun _ => none)
    ⟨by simp [State.init], by simp [State.init], by simp, by simpa [State.init] using .lock,
      fun i hi => by simpa [State.init, hi] using .idle, by simp, by simp⟩ h ht (by simpa using hn)
  have hB := base_runs loops as s es h
  rintro ⟨hne, hD⟩
  cases D with
  | nil => exact hne rfl
  | cons i D =>
    obtain ⟨j, hj, h1⟩ := hD i (List.mem_cons_self ..)
    obtain ⟨k, hk, h2⟩ := hD j hj
    obtain ⟨l, hl, h3⟩ := hD k hk
    exact chain hT hB h1 h2 l h3

/-- A tame execution: timers 7 and 8 are started, 7 fires, and its callback has to wait until the timer thread has reset it. -/
example : ∃ s, runs (step fun _ => true) State.init
      ([.call 1 (.start 7), g 1, g 1, g 1, g 1, .go 1 [] true [], g 1, g 1] ++
       [.call 2 (.start 8), g 2, g 2, g 2, .go 2 [7] false [], g 2, g 2, .go 2 [] true [], g 2, g 2] ++
       [g 0, .go 0 [7] false [], g 0, g 0, .go 0 [] true [], g 0, g 0, g 0] ++ [.runCb 1 7]) = some (s, []) ∧
      Waits s 1 0 := ⟨_, rfl, .M 7, _, rfl, rfl, by decide⟩

end Verif.Timer.Locks
