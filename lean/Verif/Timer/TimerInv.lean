import Verif.Timer.Timer

/-! # Invariants of the timer model -/

namespace Verif.Timer

theorem insert_mem_sub {exp : Id → Nat} {x y : Id} : ∀ {q : List Id}, y ∈ insert exp x q → y = x ∨ y ∈ q
  | [], h => by simpa [insert] using h
  | z :: q, h => by
    simp only [insert] at h
    split at h
    · simpa using h
    · split at h
      · rcases List.mem_cons.1 h with rfl | h
        · simp
        · rcases insert_mem_sub h with h | h <;> simp [h]
      · exact .inr h

theorem insert_mem_of_mem {exp : Id → Nat} {x y : Id} : ∀ {q : List Id}, y ∈ q → y ∈ insert exp x q
  | [], h => by simp at h
  | z :: q, h => by
    simp only [insert]
    split
    · exact List.mem_cons_of_mem _ h
    · split
      · rcases List.mem_cons.1 h with rfl | h
        · simp
        · exact List.mem_cons_of_mem _ (insert_mem_of_mem h)
      · exact h

/-- A new element gets into the queue exactly if no element has its expiry time. -/
theorem insert_mem_self {exp : Id → Nat} {x : Id} : ∀ {q : List Id}, q.Pairwise (fun a b => exp a < exp b) → x ∉ q →
    (x ∈ insert exp x q ↔ ∀ z ∈ q, exp z ≠ exp x)
  | [], _, _ => by simp [insert]
  | z :: q, hs, hx => by
    have hx' : x ≠ z ∧ x ∉ q := by simpa using hx
    have hp := List.pairwise_cons.1 hs
    simp only [insert]
    split
    · rename_i hlt
      simp only [List.mem_cons_self, true_iff]
      intro w hw
      rcases List.mem_cons.1 hw with rfl | hw
      · omega
      · have := hp.1 w hw; omega
    · split
      · rename_i h1 h2
        simp only [List.mem_cons, hx'.1, false_or, forall_eq_or_imp]
        rw [insert_mem_self hp.2 hx'.2]
        constructor
        · intro h; exact ⟨by omega, h⟩
        · intro h; exact h.2
      · rename_i h1 h2
        simp only [List.mem_cons, hx'.1, hx'.2, or_self, forall_eq_or_imp, false_iff]
        rintro ⟨h, _⟩
        omega

theorem insert_sorted {exp : Id → Nat} {x : Id} : ∀ {q : List Id}, q.Pairwise (fun a b => exp a < exp b) →
    (insert exp x q).Pairwise (fun a b => exp a < exp b)
  | [], _ => by simp [insert]
  | z :: q, hs => by
    have hp := List.pairwise_cons.1 hs
    simp only [insert]
    split
    · rename_i hlt
      refine List.pairwise_cons.2 ⟨?_, hs⟩
      intro w hw
      rcases List.mem_cons.1 hw with rfl | hw
      · exact hlt
      · exact Nat.lt_trans hlt (hp.1 w hw)
    · split
      · rename_i h1 h2
        refine List.pairwise_cons.2 ⟨?_, insert_sorted hp.2⟩
        intro w hw
        rcases insert_mem_sub hw with rfl | hw
        · exact h2
        · exact hp.1 w hw
      · exact hs

/-- Proof device: the invariant. (Concerns co_manager.cpp:181-505, co_timer.cpp:10-139.) -/
structure Inv (s : State) : Prop where
  sorted : s.q.Pairwise fun a b => s.exp a < s.exp b
  run : ∀ x ∈ s.q, (s.tm x).running = true
  goWait : s.pc = .goWait → s.q = []
  wait : s.pc = .wait → s.notified = false → s.q = []
  goUntil : ∀ e, s.pc = .goUntil e → ∃ x r, s.q = x :: r ∧ s.exp x = e
  untl : ∀ e, s.pc = .until e → s.notified = false → ∃ x r, s.q = x :: r ∧ s.exp x = e

theorem doStart_fields (cfg : Id → Kind) (s : State) (x : Id) :
    (s.doStart cfg x).now = s.now ∧ (s.doStart cfg x).pc = s.pc ∧ (s.doStart cfg x).clean = s.clean ∧
    (s.doStart cfg x).pend = s.pend ∧ (s.doStart cfg x).notified = (s.notified || s.pc.waiting) ∧
    (s.doStart cfg x).tm = setTm s.tm x ⟨expiry (cfg x) s.now (s.tm x).expire, true⟩ ∧
    (s.doStart cfg x).q = insert (s.doStart cfg x).exp x s.q := ⟨rfl, rfl, rfl, rfl, rfl, rfl, rfl⟩

theorem doStop_fields (s : State) (x : Id) :
    (s.doStop x).now = s.now ∧ (s.doStop x).pc = s.pc ∧ (s.doStop x).clean = s.clean ∧
    (s.doStop x).pend = s.pend ∧ (s.doStop x).notified = (s.notified || s.pc.waiting) ∧
    (s.doStop x).tm = setTm s.tm x ⟨(s.tm x).expire, false⟩ ∧ (s.doStop x).exp = s.exp ∧
    (s.doStop x).q = erase s.exp x s.q := by
  have he : (s.doStop x).exp = s.exp := by
    funext y
    simp only [State.exp, State.doStop, State.notify, setTm]
    split
    · rename_i h; rw [h]
    · rfl
  refine ⟨rfl, rfl, rfl, rfl, rfl, rfl, he, ?_⟩
  have : (s.doStop x).q = erase (s.doStop x).exp x s.q := rfl
  rw [this, he]

theorem doStart_exp_other (cfg : Id → Kind) (s : State) (x y : Id) (h : y ≠ x) : (s.doStart cfg x).exp y = s.exp y := by
  simp [State.exp, State.doStart, State.notify, setTm, h]

theorem pairwise_congr {exp exp' : Id → Nat} {q : List Id} (h : ∀ y ∈ q, exp' y = exp y)
    (hp : q.Pairwise fun a b => exp a < exp b) : q.Pairwise fun a b => exp' a < exp' b := by
  induction q with
  | nil => simp
  | cons z q ih =>
    have hp' := List.pairwise_cons.1 hp
    refine List.pairwise_cons.2 ⟨?_, ih (fun y hy => h y (List.mem_cons_of_mem _ hy)) hp'.2⟩
    intro w hw
    rw [h z (List.mem_cons_self ..), h w (List.mem_cons_of_mem _ hw)]
    exact hp'.1 w hw

/-- Starting a stopped timer keeps the order of the queue and the status of its elements. -/
theorem doStart_queue (cfg : Id → Kind) {s : State} {x : Id} (hs : s.q.Pairwise fun a b => s.exp a < s.exp b)
    (hr : ∀ y ∈ s.q, (s.tm y).running = true) (hx : x ∉ s.q) :
    ((s.doStart cfg x).q.Pairwise fun a b => (s.doStart cfg x).exp a < (s.doStart cfg x).exp b) ∧
    (∀ y ∈ (s.doStart cfg x).q, ((s.doStart cfg x).tm y).running = true) ∧
    (x ∈ (s.doStart cfg x).q ↔ ∀ z ∈ s.q, s.exp z ≠ (s.doStart cfg x).exp x) := by
  have hp : s.q.Pairwise fun a b => (s.doStart cfg x).exp a < (s.doStart cfg x).exp b :=
    pairwise_congr (fun y hy => doStart_exp_other cfg s x y (by rintro rfl; exact hx hy)) hs
  refine ⟨?_, ?_, ?_⟩
  · rw [(doStart_fields cfg s x).2.2.2.2.2.2]
    exact insert_sorted hp
  · intro y hy
    rw [(doStart_fields cfg s x).2.2.2.2.2.2] at hy
    rw [(doStart_fields cfg s x).2.2.2.2.2.1]
    simp only [setTm]
    split
    · rfl
    · rename_i hne
      rcases insert_mem_sub hy with rfl | hy
      · exact absurd rfl hne
      · exact hr y hy
  · rw [(doStart_fields cfg s x).2.2.2.2.2.2, insert_mem_self hp hx]
    constructor
    · intro h z hz
      rw [← doStart_exp_other cfg s x z (by rintro rfl; exact hx hz)]
      exact h z hz
    · intro h z hz
      rw [doStart_exp_other cfg s x z (by rintro rfl; exact hx hz)]
      exact h z hz

/-- Stopping a timer keeps the order of the queue and the status of its elements. -/
theorem doStop_queue {s : State} {x : Id} (hs : s.q.Pairwise fun a b => s.exp a < s.exp b)
    (hr : ∀ y ∈ s.q, (s.tm y).running = true) :
    ((s.doStop x).q.Pairwise fun a b => (s.doStop x).exp a < (s.doStop x).exp b) ∧
    (∀ y ∈ (s.doStop x).q, ((s.doStop x).tm y).running = true) ∧
    (∀ y, y ∈ (s.doStop x).q ↔ y ∈ s.q ∧ s.exp y ≠ s.exp x) := by
  obtain ⟨_, _, _, _, _, h6, h7, h8⟩ := doStop_fields s x
  have hm : ∀ y, y ∈ (s.doStop x).q ↔ y ∈ s.q ∧ s.exp y ≠ s.exp x := by
    intro y; rw [h8]; simp [erase]
  refine ⟨?_, ?_, hm⟩
  · rw [h7, h8]
    exact hs.sublist List.filter_sublist
  · intro y hy
    rw [h6]
    simp only [setTm]
    split
    · rename_i he
      subst he
      exact absurd rfl ((hm y).1 hy).2
    · exact hr y ((hm y).1 hy).1

theorem inv_of_queue {s s' : State} (hI : Inv s) (hsort : s'.q.Pairwise fun a b => s'.exp a < s'.exp b)
    (hrun : ∀ y ∈ s'.q, (s'.tm y).running = true) (hpc : s'.pc = s.pc) (hfree : s.pc.free = true)
    (hn : s'.notified = (s.notified || s.pc.waiting)) : Inv s' := by
  refine ⟨hsort, hrun, ?_, ?_, ?_, ?_⟩
  · intro h; rw [hpc] at h; rw [h] at hfree; simp [Pc.free] at hfree
  · intro h hn'; rw [hpc] at h; rw [hn, h] at hn'; simp [Pc.waiting] at hn'
  · intro e h; rw [hpc] at h; rw [h] at hfree; simp [Pc.free] at hfree
  · intro e h hn'; rw [hpc] at h; rw [hn, h] at hn'; simp [Pc.waiting] at hn'

/-- A state of the timer thread in which nothing but the queue matters. -/
theorem inv_plain {s : State} (hsort : s.q.Pairwise fun a b => s.exp a < s.exp b)
    (hrun : ∀ y ∈ s.q, (s.tm y).running = true)
    (hpc : s.pc = .top ∨ s.pc = .woken ∨ s.pc = .look ∨ s.pc = .exited ∨ s.pc = .crashed) : Inv s := by
  refine ⟨hsort, hrun, ?_, ?_, ?_, ?_⟩ <;> intros <;> rcases hpc with h | h | h | h | h <;> simp_all

/-- What the timer thread does with an expired timer at the head of the queue (co_manager.cpp:366-378). -/
theorem fire_queue (cfg : Id → Kind) {s : State} (hI : Inv s) {x : Id} {r : List Id} (hq : s.q = x :: r) (d : Nat) :
    let s1 : State := { s with pend := s.pend ++ [x], pc := .top }
    let s2 := s1.doStop x
    let s3 := { s2 with now := s2.now + d }.doStart cfg x
    (s1.tm x).running = true ∧ s2.q = r ∧ x ∉ r ∧ Inv s2 ∧ Inv s3 := by
  intro s1 s2 s3
  have hrun : (s1.tm x).running = true := hI.run x (by rw [hq]; simp)
  have hsort := hI.sorted
  rw [hq] at hsort
  have hp := List.pairwise_cons.1 hsort
  have hx : x ∉ r := by
    intro h
    have := hp.1 x h
    omega
  have hq2 : s2.q = r := by
    have := (doStop_fields s1 x).2.2.2.2.2.2.2
    rw [this]
    show erase s.exp x s.q = r
    rw [hq]
    simp only [erase, ne_eq, not_true_eq_false, decide_false, Bool.false_eq_true, not_false_eq_true, List.filter_cons_of_neg]
    rw [List.filter_eq_self]
    intro y hy
    have := hp.1 y hy
    simp; omega
  have h2 := doStop_queue (s := s1) (x := x) hI.sorted hI.run
  have hI2 : Inv s2 := inv_plain h2.1 h2.2.1 (.inl rfl)
  refine ⟨hrun, hq2, hx, hI2, ?_⟩
  have h3 := doStart_queue cfg (s := { s2 with now := s2.now + d }) (x := x) h2.1 h2.2.1 (by
    show x ∉ s2.q
    rw [hq2]; exact hx)
  exact inv_plain h3.1 h3.2.1 (.inl rfl)

theorem inv_step (cfg : Id → Kind) {s s' : State} {a : Act} {es : List Ev} (hI : Inv s)
    (hs : step cfg s a = some (s', es)) : Inv s' := by
  simp only [step] at hs
  split at hs
  · simp at hs
  cases a with
  | tick d =>
    simp only [Option.some.injEq, Prod.mk.injEq] at hs
    obtain ⟨rfl, rfl⟩ := hs
    exact ⟨hI.sorted, hI.run, hI.goWait, hI.wait, hI.goUntil, hI.untl⟩
  | start x =>
    simp only at hs
    split at hs
    · simp only [Option.some.injEq, Prod.mk.injEq] at hs
      obtain ⟨rfl, rfl⟩ := hs
      exact hI
    · rename_i hnr
      split at hs
      · rename_i hf
        simp only [Option.some.injEq, Prod.mk.injEq] at hs
        obtain ⟨rfl, rfl⟩ := hs
        have hx : x ∉ s.q := fun h => hnr (hI.run x h)
        have h := doStart_queue cfg hI.sorted hI.run hx
        exact inv_of_queue hI h.1 h.2.1 rfl hf rfl
      · simp at hs
  | stop x =>
    simp only at hs
    split at hs
    · simp only [Option.some.injEq, Prod.mk.injEq] at hs
      obtain ⟨rfl, rfl⟩ := hs
      exact hI
    · split at hs
      · rename_i hf
        simp only [Option.some.injEq, Prod.mk.injEq] at hs
        obtain ⟨rfl, rfl⟩ := hs
        have h := doStop_queue (x := x) hI.sorted hI.run
        exact inv_of_queue hI h.1 h.2.1 rfl hf rfl
      · simp at hs
  | thr d =>
    simp only at hs
    split at hs
    · simp only [Option.some.injEq, Prod.mk.injEq] at hs
      obtain ⟨rfl, rfl⟩ := hs
      exact inv_plain hI.sorted hI.run (.inl rfl)
    · split at hs
      · simp only [Option.some.injEq, Prod.mk.injEq] at hs
        obtain ⟨rfl, rfl⟩ := hs
        exact inv_plain hI.sorted hI.run (.inr (.inr (.inr (.inl rfl))))
      · split at hs
        · rename_i hq
          simp only [Option.some.injEq, Prod.mk.injEq] at hs
          obtain ⟨rfl, rfl⟩ := hs
          exact ⟨hI.sorted, hI.run, fun _ => hq, by simp, by simp, by simp⟩
        · simp only [Option.some.injEq, Prod.mk.injEq] at hs
          obtain ⟨rfl, rfl⟩ := hs
          exact inv_plain hI.sorted hI.run (.inr (.inr (.inl rfl)))
    · rename_i hpc
      simp only [Option.some.injEq, Prod.mk.injEq] at hs
      obtain ⟨rfl, rfl⟩ := hs
      exact ⟨hI.sorted, hI.run, by simp, fun _ _ => hI.goWait hpc, by simp, by simp⟩
    · split at hs
      · simp only [Option.some.injEq, Prod.mk.injEq] at hs
        obtain ⟨rfl, rfl⟩ := hs
        exact inv_plain hI.sorted hI.run (.inr (.inr (.inr (.inl rfl))))
      · simp only [Option.some.injEq, Prod.mk.injEq] at hs
        obtain ⟨rfl, rfl⟩ := hs
        exact inv_plain hI.sorted hI.run (.inr (.inr (.inl rfl)))
    · split at hs
      · simp only [Option.some.injEq, Prod.mk.injEq] at hs
        obtain ⟨rfl, rfl⟩ := hs
        exact inv_plain hI.sorted hI.run (.inr (.inr (.inr (.inr rfl))))
      · rename_i x r hq
        split at hs
        · obtain ⟨h1, h2, h3, h4, h5⟩ := fire_queue cfg hI hq d
          simp only at h1
          simp only [h1, if_true] at hs
          split at hs
          · simp only [Option.some.injEq, Prod.mk.injEq] at hs
            obtain ⟨rfl, rfl⟩ := hs
            exact h5
          · simp only [Option.some.injEq, Prod.mk.injEq] at hs
            obtain ⟨rfl, rfl⟩ := hs
            exact h4
        · simp only [Option.some.injEq, Prod.mk.injEq] at hs
          obtain ⟨rfl, rfl⟩ := hs
          refine ⟨hI.sorted, hI.run, by simp, by simp, ?_, by simp⟩
          intro e he
          simp only [Pc.goUntil.injEq] at he
          exact ⟨x, r, hq, he⟩
    · rename_i e hpc
      simp only [Option.some.injEq, Prod.mk.injEq] at hs
      obtain ⟨rfl, rfl⟩ := hs
      refine ⟨hI.sorted, hI.run, by simp, by simp, by simp, ?_⟩
      intro e' he _
      simp only [Pc.until.injEq] at he
      subst he
      exact hI.goUntil e hpc
    · simp at hs
  | wake sp =>
    simp only at hs
    split at hs
    · split at hs
      · simp only [Option.some.injEq, Prod.mk.injEq] at hs
        obtain ⟨rfl, rfl⟩ := hs
        exact inv_plain hI.sorted hI.run (.inr (.inl rfl))
      · simp at hs
    · split at hs
      · simp only [Option.some.injEq, Prod.mk.injEq] at hs
        obtain ⟨rfl, rfl⟩ := hs
        exact inv_plain hI.sorted hI.run (.inl rfl)
      · simp at hs
    · simp at hs
  | cb x =>
    simp only at hs
    split at hs
    · simp only [Option.some.injEq, Prod.mk.injEq] at hs
      obtain ⟨rfl, rfl⟩ := hs
      exact ⟨hI.sorted, hI.run, hI.goWait, hI.wait, hI.goUntil, hI.untl⟩
    · simp at hs
  | clean =>
    simp only [Option.some.injEq, Prod.mk.injEq] at hs
    obtain ⟨rfl, rfl⟩ := hs
    exact ⟨hI.sorted, hI.run, hI.goWait, hI.wait, hI.goUntil, hI.untl⟩
  | cleanNotify =>
    simp only at hs
    split at hs
    · simp only [Option.some.injEq, Prod.mk.injEq] at hs
      obtain ⟨rfl, rfl⟩ := hs
      refine ⟨hI.sorted, hI.run, hI.goWait, ?_, hI.goUntil, ?_⟩
      · intro h hn
        simp only [State.notify, Bool.or_eq_false_iff] at hn h
        exact hI.wait h hn.1
      · intro e h hn
        simp only [State.notify, Bool.or_eq_false_iff] at hn h
        exact hI.untl e h hn.1
    · simp at hs

theorem inv_init (cfg : Id → Kind) (t0 : Nat) : Inv (State.init cfg t0) := by
  constructor <;> simp [State.init]

theorem inv_runs (cfg : Id → Kind) (t0 : Nat) (as : List Act) (s : State) (es : List Ev)
    (h : runs (step cfg) (State.init cfg t0) as = some (s, es)) : Inv s :=
  runs_inv (step := step cfg) Inv (fun _ _ _ _ hI hs => inv_step cfg hI hs) as _ s es (inv_init cfg t0) h

/-! ## The armed timers -/

theorem armed_append (es es' : List Ev) : armed (es ++ es') = es'.foldl note (armed es) := by
  simp [armed]

/-- What the state says about the armed timers. (Concerns co_manager.cpp:181-505, co_timer.cpp:10-139.) -/
def State.armed (s : State) (x : Id) : Option Nat := if (s.tm x).running then some (s.tm x).expire else none

theorem armed_doStart (cfg : Id → Kind) (s : State) (x : Id) :
    (s.doStart cfg x).armed = note s.armed (.start x ((s.doStart cfg x).exp x)) := by
  funext y
  simp only [State.armed, State.exp, (doStart_fields cfg s x).2.2.2.2.2.1, note, setTm, if_true]
  by_cases h : y = x <;> simp [h]

theorem armed_doStop (s : State) (x : Id) : (s.doStop x).armed = note s.armed (.stop x) := by
  funext y
  simp only [State.armed, (doStop_fields s x).2.2.2.2.2.1, note, setTm]
  by_cases h : y = x <;> simp [h]

theorem armed_step (cfg : Id → Kind) {s s' : State} {a : Act} {es : List Ev}
    (hs : step cfg s a = some (s', es)) : s'.armed = es.foldl note s.armed := by
  simp only [step] at hs
  split at hs
  · simp at hs
  cases a with
  | tick d =>
    simp only [Option.some.injEq, Prod.mk.injEq] at hs
    obtain ⟨rfl, rfl⟩ := hs
    rfl
  | start x =>
    simp only at hs
    split at hs
    · simp only [Option.some.injEq, Prod.mk.injEq] at hs
      obtain ⟨rfl, rfl⟩ := hs
      rfl
    · split at hs
      · simp only [Option.some.injEq, Prod.mk.injEq] at hs
        obtain ⟨rfl, rfl⟩ := hs
        exact armed_doStart cfg s x
      · simp at hs
  | stop x =>
    simp only at hs
    split at hs
    · simp only [Option.some.injEq, Prod.mk.injEq] at hs
      obtain ⟨rfl, rfl⟩ := hs
      rfl
    · split at hs
      · simp only [Option.some.injEq, Prod.mk.injEq] at hs
        obtain ⟨rfl, rfl⟩ := hs
        exact armed_doStop s x
      · simp at hs
  | thr d =>
    simp only at hs
    split at hs
    · simp only [Option.some.injEq, Prod.mk.injEq] at hs
      obtain ⟨rfl, rfl⟩ := hs
      rfl
    · repeat' split at hs
      all_goals simp only [Option.some.injEq, Prod.mk.injEq] at hs
      all_goals obtain ⟨rfl, rfl⟩ := hs
      all_goals rfl
    · simp only [Option.some.injEq, Prod.mk.injEq] at hs
      obtain ⟨rfl, rfl⟩ := hs
      rfl
    · repeat' split at hs
      all_goals simp only [Option.some.injEq, Prod.mk.injEq] at hs
      all_goals obtain ⟨rfl, rfl⟩ := hs
      all_goals rfl
    · split at hs
      · simp only [Option.some.injEq, Prod.mk.injEq] at hs
        obtain ⟨rfl, rfl⟩ := hs
        rfl
      · rename_i x r hq
        split at hs
        · by_cases hb : (s.tm x).running = true
          · simp only [hb, if_true] at hs
            split at hs
            · simp only [Option.some.injEq, Prod.mk.injEq] at hs
              obtain ⟨rfl, rfl⟩ := hs
              rw [armed_doStart]
              have h2 := armed_doStop ({ s with pend := s.pend ++ [x], pc := .top } : State) x
              exact congrArg (fun f => note f _) h2
            · simp only [Option.some.injEq, Prod.mk.injEq] at hs
              obtain ⟨rfl, rfl⟩ := hs
              exact armed_doStop ({ s with pend := s.pend ++ [x], pc := .top } : State) x
          · simp only [hb, if_false, Bool.false_eq_true] at hs
            split at hs
            · simp only [Option.some.injEq, Prod.mk.injEq] at hs
              obtain ⟨rfl, rfl⟩ := hs
              rw [armed_doStart]
              rfl
            · simp only [Option.some.injEq, Prod.mk.injEq] at hs
              obtain ⟨rfl, rfl⟩ := hs
              rfl
        · simp only [Option.some.injEq, Prod.mk.injEq] at hs
          obtain ⟨rfl, rfl⟩ := hs
          rfl
    · simp only [Option.some.injEq, Prod.mk.injEq] at hs
      obtain ⟨rfl, rfl⟩ := hs
      rfl
    · simp at hs
  | wake sp =>
    simp only at hs
    repeat' split at hs
    all_goals simp only [Option.some.injEq, Prod.mk.injEq, reduceCtorEq] at hs
    all_goals obtain ⟨rfl, rfl⟩ := hs
    all_goals rfl
  | cb x =>
    simp only at hs
    split at hs
    · simp only [Option.some.injEq, Prod.mk.injEq] at hs
      obtain ⟨rfl, rfl⟩ := hs
      rfl
    · simp at hs
  | clean =>
    simp only [Option.some.injEq, Prod.mk.injEq] at hs
    obtain ⟨rfl, rfl⟩ := hs
    rfl
  | cleanNotify =>
    simp only at hs
    split at hs
    · simp only [Option.some.injEq, Prod.mk.injEq] at hs
      obtain ⟨rfl, rfl⟩ := hs
      rfl
    · simp at hs

theorem armed_runs (cfg : Id → Kind) (t0 : Nat) (as : List Act) (s : State) (es : List Ev)
    (h : runs (step cfg) (State.init cfg t0) as = some (s, es)) : s.armed = armed es := by
  have := runs_hist (step := step cfg) (fun s tr => s.armed = armed tr)
    (fun s a s' es tr hI hs => by rw [armed_append, ← hI]; exact armed_step cfg hs)
    as (State.init cfg t0) s es [] (by funext x; simp [State.armed, State.init, armed]) h
  simpa using this

end Verif.Timer
