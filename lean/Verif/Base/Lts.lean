/-!
# Labelled transition systems with emitted events

Every concurrent part of the library is modelled by an executable step function
`step : S → A → Option (S × List E)`: `S` is the state, `A` the choice the environment makes
(which coroutine runs next, which call a client makes, what the clock says) and `E` the
observable events. `none` means that the action is not possible in that state.

An execution is an arbitrary list of actions. Theorems about `runs` therefore range over all
schedules, all numbers of coroutines and all client programs.
-/

namespace Verif

/-- Coroutine identities. No bound is put on their number. (Nothing in /repo: general.) -/
abbrev Tid := Nat

section
variable {S A E Q : Type}

/-- Execute a list of actions; `none` if one of them is not possible. Returns the final state and
the trace of events. (Nothing in /repo: general.) -/
def runs (step : S → A → Option (S × List E)) : S → List A → Option (S × List E)
  | s, [] => some (s, [])
  | s, a :: as =>
    match step s a with
    | none => none
    | some (s', es) =>
      match runs step s' as with
      | none => none
      | some (s'', es') => some (s'', es ++ es')

/-- `s'` can be reached from `s` by some execution. (Nothing in /repo: general.) -/
def Reach (step : S → A → Option (S × List E)) (s s' : S) : Prop :=
  ∃ as es, runs step s as = some (s', es)

/-- A trace is accepted by an automaton `acc` started in `q` if no event is rejected. (Nothing in /repo: general.) -/
def accepts (acc : Q → E → Option Q) : Q → List E → Option Q
  | q, [] => some q
  | q, e :: es => (acc q e).bind (fun q' => accepts acc q' es)

theorem runs_nil (step : S → A → Option (S × List E)) (s : S) :
    runs step s [] = some (s, []) := rfl

theorem runs_cons {step : S → A → Option (S × List E)} {s s'' : S} {a : A} {as : List A}
    {es : List E} (h : runs step s (a :: as) = some (s'', es)) :
    ∃ s' e1 e2, step s a = some (s', e1) ∧ runs step s' as = some (s'', e2) ∧ es = e1 ++ e2 := by
  simp only [runs] at h
  cases h1 : step s a with
  | none => simp [h1] at h
  | some p =>
    obtain ⟨s', e1⟩ := p
    simp only [h1] at h
    cases h2 : runs step s' as with
    | none => simp [h2] at h
    | some p2 =>
      obtain ⟨s2, e2⟩ := p2
      simp only [h2, Option.some.injEq, Prod.mk.injEq] at h
      exact ⟨s', e1, e2, rfl, by rw [h2, h.1], h.2.symm⟩

theorem runs_append {step : S → A → Option (S × List E)} {s s1 s2 : S} {as bs : List A}
    {e1 e2 : List E} (h1 : runs step s as = some (s1, e1)) (h2 : runs step s1 bs = some (s2, e2)) :
    runs step s (as ++ bs) = some (s2, e1 ++ e2) := by
  induction as generalizing s e1 with
  | nil =>
    simp only [runs, Option.some.injEq, Prod.mk.injEq] at h1
    obtain ⟨rfl, rfl⟩ := h1
    simpa using h2
  | cons a as ih =>
    obtain ⟨s', ea, eb, hs, hr, rfl⟩ := runs_cons h1
    have := ih hr
    simp only [List.cons_append, runs, hs, this, List.append_assoc]

theorem Reach.refl (step : S → A → Option (S × List E)) (s : S) : Reach step s s :=
  ⟨[], [], rfl⟩

theorem Reach.trans {step : S → A → Option (S × List E)} {a b c : S}
    (h1 : Reach step a b) (h2 : Reach step b c) : Reach step a c := by
  obtain ⟨as, es, h1⟩ := h1
  obtain ⟨bs, fs, h2⟩ := h2
  exact ⟨_, _, runs_append h1 h2⟩

/-- Invariants: what holds initially and is kept by every step holds after every execution. -/
theorem runs_inv {step : S → A → Option (S × List E)} (I : S → Prop)
    (hstep : ∀ s a s' es, I s → step s a = some (s', es) → I s') :
    ∀ (as : List A) (s s' : S) (es : List E), I s → runs step s as = some (s', es) → I s' := by
  intro as
  induction as with
  | nil =>
    intro s s' es hI h
    simp only [runs, Option.some.injEq, Prod.mk.injEq] at h
    exact h.1 ▸ hI
  | cons a as ih =>
    intro s s' es hI h
    obtain ⟨s1, e1, e2, h1, h2, _⟩ := runs_cons h
    exact ih s1 s' e2 (hstep s a s1 e1 hI h1) h2

theorem Reach.inv {step : S → A → Option (S × List E)} {s s' : S} (I : S → Prop)
    (hstep : ∀ s a s' es, I s → step s a = some (s', es) → I s')
    (h : Reach step s s') (hI : I s) : I s' := by
  obtain ⟨as, es, h⟩ := h
  exact runs_inv I hstep as s s' es hI h

theorem accepts_append (acc : Q → E → Option Q) (q : Q) (es fs : List E) :
    accepts acc q (es ++ fs) = (accepts acc q es).bind (fun q' => accepts acc q' fs) := by
  induction es generalizing q with
  | nil => rfl
  | cons e es ih =>
    simp only [List.cons_append, accepts]
    cases acc q e with
    | none => rfl
    | some q' => simpa using ih q'

/-- Simulation: if `R` relates the initial states and every step is matched by the automaton, every
trace is accepted, and the final states are related. -/
theorem runs_sim {step : S → A → Option (S × List E)} {acc : Q → E → Option Q} (R : S → Q → Prop)
    (hstep : ∀ s a s' es q, R s q → step s a = some (s', es) →
      ∃ q', accepts acc q es = some q' ∧ R s' q') :
    ∀ (as : List A) (s s' : S) (es : List E) (q : Q), R s q → runs step s as = some (s', es) →
      ∃ q', accepts acc q es = some q' ∧ R s' q' := by
  intro as
  induction as with
  | nil =>
    intro s s' es q hR h
    simp only [runs, Option.some.injEq, Prod.mk.injEq] at h
    obtain ⟨rfl, rfl⟩ := h
    exact ⟨q, rfl, hR⟩
  | cons a as ih =>
    intro s s' es q hR h
    obtain ⟨s1, e1, e2, h1, h2, rfl⟩ := runs_cons h
    obtain ⟨q1, hq1, hR1⟩ := hstep s a s1 e1 q hR h1
    obtain ⟨q2, hq2, hR2⟩ := ih s1 s' e2 q1 hR1 h2
    refine ⟨q2, ?_, hR2⟩
    rw [accepts_append, hq1]
    exact hq2

/-- Invariants of executions all of whose events satisfy `P`. -/
theorem runs_inv_ev {step : S → A → Option (S × List E)} (I : S → Prop) (P : E → Prop)
    (hstep : ∀ s a s' es, I s → (∀ e ∈ es, P e) → step s a = some (s', es) → I s') :
    ∀ (as : List A) (s s' : S) (es : List E), I s → runs step s as = some (s', es) → (∀ e ∈ es, P e) → I s' := by
  intro as
  induction as with
  | nil =>
    intro s s' es hI h _
    simp only [runs, Option.some.injEq, Prod.mk.injEq] at h
    exact h.1 ▸ hI
  | cons a as ih =>
    intro s s' es hI h hP
    obtain ⟨s1, e1, e2, h1, h2, rfl⟩ := runs_cons h
    exact ih s1 s' e2 (hstep s a s1 e1 hI (fun e he => hP e (List.mem_append_left _ he)) h1) h2
      (fun e he => hP e (List.mem_append_right _ he))

/-- Simulation of executions all of whose events satisfy `P`. -/
theorem runs_sim_ev {step : S → A → Option (S × List E)} {acc : Q → E → Option Q} (R : S → Q → Prop) (P : E → Prop)
    (hstep : ∀ s a s' es q, R s q → (∀ e ∈ es, P e) → step s a = some (s', es) →
      ∃ q', accepts acc q es = some q' ∧ R s' q') :
    ∀ (as : List A) (s s' : S) (es : List E) (q : Q), R s q → runs step s as = some (s', es) → (∀ e ∈ es, P e) →
      ∃ q', accepts acc q es = some q' ∧ R s' q' := by
  intro as
  induction as with
  | nil =>
    intro s s' es q hR h _
    simp only [runs, Option.some.injEq, Prod.mk.injEq] at h
    obtain ⟨rfl, rfl⟩ := h
    exact ⟨q, rfl, hR⟩
  | cons a as ih =>
    intro s s' es q hR h hP
    obtain ⟨s1, e1, e2, h1, h2, rfl⟩ := runs_cons h
    obtain ⟨q1, hq1, hR1⟩ := hstep s a s1 e1 q hR (fun e he => hP e (List.mem_append_left _ he)) h1
    obtain ⟨q2, hq2, hR2⟩ := ih s1 s' e2 q1 hR1 h2 (fun e he => hP e (List.mem_append_right _ he))
    refine ⟨q2, ?_, hR2⟩
    rw [accepts_append, hq1]
    exact hq2

/-- An execution whose trace is split at some event can be split into two executions there, unless the splitting point
is inside the events of one step. -/
theorem runs_split {step : S → A → Option (S × List E)} :
    ∀ (as : List A) (s s' : S) (pre : List E) (e : E) (post : List E),
      runs step s as = some (s', pre ++ e :: post) →
      ∃ as1 a as2 s1 s2 p1 p2 q1 q2, as = as1 ++ a :: as2 ∧ runs step s as1 = some (s1, p1) ∧
        step s1 a = some (s2, p2 ++ e :: q1) ∧ runs step s2 as2 = some (s', q2) ∧ pre = p1 ++ p2 ∧
        post = q1 ++ q2 := by
  intro as
  induction as with
  | nil => intro s s' pre e post h; simp [runs] at h
  | cons a as ih =>
    intro s s' pre e post h
    obtain ⟨s1, e1, e2, h1, h2, he⟩ := runs_cons h
    rcases List.append_eq_append_iff.1 he with ⟨m, hm1, hm2⟩ | ⟨m, hm1, hm2⟩
    · cases m with
      | nil =>
        simp only [List.nil_append] at hm2
        simp only [List.append_nil] at hm1
        obtain ⟨as1, b, as2, t1, t2, p1, p2, q1, q2, ha, hb, hc, hd, hp, hq⟩ :=
          ih s1 s' [] e post (by simpa [← hm2] using h2)
        refine ⟨a :: as1, b, as2, t1, t2, e1 ++ p1, p2, q1, q2, by simp [ha], ?_, hc, hd, ?_, hq⟩
        · simp only [runs, h1, hb]
        · have h0 : p1 = [] ∧ p2 = [] := by simpa using hp.symm
          simp [h0, hm1]
      | cons x m =>
        simp only [List.cons_append, List.cons.injEq] at hm2
        obtain ⟨rfl, rfl⟩ := hm2
        exact ⟨[], a, as, s, s1, [], pre, m, e2, rfl, rfl, by rw [h1, hm1], h2, rfl, rfl⟩
    · obtain ⟨as1, b, as2, t1, t2, p1, p2, q1, q2, ha, hb, hc, hd, hp, hq⟩ := ih s1 s' m e post (by rw [h2, hm2])
      refine ⟨a :: as1, b, as2, t1, t2, e1 ++ p1, p2, q1, q2, by simp [ha], ?_, hc, hd, ?_, hq⟩
      · simp only [runs, h1, hb]
      · rw [hm1, hp, List.append_assoc]

end

section
variable {S A E Q : Type}

/-- A trace leads from `q` to `q'` in the relational specification `R`. (Nothing in /repo: general.) -/
inductive Path (R : Q → E → Q → Prop) : Q → List E → Q → Prop
  | nil (q : Q) : Path R q [] q
  | cons {q q1 q2 : Q} {e : E} {es : List E} (h : R q e q1) (hs : Path R q1 es q2) : Path R q (e :: es) q2

theorem Path.one {R : Q → E → Q → Prop} {q q1 : Q} {e : E} (h : R q e q1) : Path R q [e] q1 := .cons h (.nil _)

theorem Path.append {R : Q → E → Q → Prop} {q q1 q2 : Q} {es fs : List E} (h1 : Path R q es q1) (h2 : Path R q1 fs q2) :
    Path R q (es ++ fs) q2 := by
  induction h1 with
  | nil => exact h2
  | cons h _ ih => exact .cons h (ih h2)

theorem Path.split {R : Q → E → Q → Prop} {q q2 : Q} {es fs : List E} (h : Path R q (es ++ fs) q2) :
    ∃ q1, Path R q es q1 ∧ Path R q1 fs q2 := by
  induction es generalizing q with
  | nil => exact ⟨q, .nil q, h⟩
  | cons e es ih =>
    cases h with
    | cons h1 h2 =>
      obtain ⟨q1, i1, i2⟩ := ih h2
      exact ⟨q1, .cons h1 i1, i2⟩

theorem Path.inv {R : Q → E → Q → Prop} (I : Q → Prop) (hI : ∀ q e q', I q → R q e q' → I q') {q q' : Q} {es : List E}
    (h : Path R q es q') (h0 : I q) : I q' := by
  induction h with
  | nil => exact h0
  | cons h _ ih => exact ih (hI _ _ _ h0 h)

/-- Invariants relating the state and the trace so far. -/
theorem runs_hist {step : S → A → Option (S × List E)} (I : S → List E → Prop)
    (hstep : ∀ s a s' es tr, I s tr → step s a = some (s', es) → I s' (tr ++ es)) :
    ∀ (as : List A) (s s' : S) (es tr : List E), I s tr → runs step s as = some (s', es) → I s' (tr ++ es) := by
  intro as
  induction as with
  | nil =>
    intro s s' es tr hI h
    simp only [runs, Option.some.injEq, Prod.mk.injEq] at h
    obtain ⟨rfl, rfl⟩ := h
    simpa using hI
  | cons a as ih =>
    intro s s' es tr hI h
    obtain ⟨s1, e1, e2, h1, h2, rfl⟩ := runs_cons h
    rw [← List.append_assoc]
    exact ih s1 s' e2 (tr ++ e1) (hstep s a s1 e1 tr hI h1) h2

/-- Simulation by a relational specification, for executions all of whose events satisfy `P`. -/
theorem runs_path {step : S → A → Option (S × List E)} {T : Q → E → Q → Prop} (R : S → Q → Prop) (P : E → Prop)
    (hstep : ∀ s a s' es q, R s q → (∀ e ∈ es, P e) → step s a = some (s', es) → ∃ q', Path T q es q' ∧ R s' q') :
    ∀ (as : List A) (s s' : S) (es : List E) (q : Q), R s q → runs step s as = some (s', es) → (∀ e ∈ es, P e) →
      ∃ q', Path T q es q' ∧ R s' q' := by
  intro as
  induction as with
  | nil =>
    intro s s' es q hR h _
    simp only [runs, Option.some.injEq, Prod.mk.injEq] at h
    obtain ⟨rfl, rfl⟩ := h
    exact ⟨q, .nil q, hR⟩
  | cons a as ih =>
    intro s s' es q hR h hP
    obtain ⟨s1, e1, e2, h1, h2, rfl⟩ := runs_cons h
    obtain ⟨q1, hq1, hR1⟩ := hstep s a s1 e1 q hR (fun e he => hP e (List.mem_append_left _ he)) h1
    obtain ⟨q2, hq2, hR2⟩ := ih s1 s' e2 q1 hR1 h2 (fun e he => hP e (List.mem_append_right _ he))
    exact ⟨q2, hq1.append hq2, hR2⟩

end

/-- Induction on lists from the back. -/
theorem list_snoc {α : Type} {P : List α → Prop} (nil : P [])
    (snoc : ∀ l a, P l → P (l ++ [a])) (l : List α) : P l := by
  have h : ∀ l : List α, P l.reverse := by
    intro l
    induction l with
    | nil => exact nil
    | cons a l ih => simpa using snoc _ a ih
  simpa using h l.reverse

/-- Update a function at one point: writing one coroutine's local variable. (Nothing in /repo: general.) -/
def upd {α : Type} (f : Tid → α) (t : Tid) (v : α) : Tid → α :=
  fun u => if u = t then v else f u

@[simp, grind =] theorem upd_same {α : Type} (f : Tid → α) (t : Tid) (v : α) : upd f t v t = v := by
  simp [upd]

@[simp, grind =] theorem upd_other {α : Type} (f : Tid → α) {t u : Tid} (v : α) (h : u ≠ t) :
    upd f t v u = f u := by
  simp [upd, h]

@[grind =] theorem upd_apply {α : Type} (f : Tid → α) (t u : Tid) (v : α) :
    upd f t v u = if u = t then v else f u := rfl

end Verif
