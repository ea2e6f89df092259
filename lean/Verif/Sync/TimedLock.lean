import Verif.Sync.MutexProps
import Verif.Sync.RecMutexProps
import Verif.Sync.SharedMutexProps
import Verif.Monitor.FullObjs

/-! # Timed locking over the real locks (C113)

`co_timed_mutex`, `co_recursive_timed_mutex`, `co_shared_timed_mutex` and `co_counting_semaphore` together with their timed operations
(include/cocpp/sync/co_timed_addition.h, co_shared_timed_mutex.h, co_counting_semaphore.h:85-105). The loop around the attempts is
modelled here, with a clock; an attempt is a call of the object below, all of whose steps interleave with those of all other coroutines.
C15 is about the loop alone, with arbitrary answers of the attempts.

Times are integers; for the overflow of `now + duration` see C95. -/

namespace Verif.TimedLock

section
variable {S A E M : Type}

/-- An object with an attempt that can be made in the modes `M`: its steps; whose step it is; is it a step inside a call (or a new call);
the call of the attempt; what an event tells about the end of an attempt of `t`. (Concerns co_timed_addition.h:21-44, co_counting_semaphore.h:85-105.) -/
structure Base (S A E M : Type) where
  step : S → A → Option (S × List E)
  who : A → Tid
  inside : A → Bool
  try_ : M → Tid → A
  res : Tid → E → Option Bool

/-- Where a coroutine is in `try_lock_until` (co_timed_addition.h:28-44, co_shared_timed_mutex.h:28-43, co_counting_semaphore.h:92-105).
`d` is the deadline. -/
inductive Pc (M : Type)
  /-- in no timed call; perhaps in another call of the object -/
  | out
  /-- in an attempt (lines 35; 35; 97) -/
  | att (m : M) (d : Int)
  /-- the attempt has failed; yielding (39-41; 39-41; 101) -/
  | yld (m : M) (d : Int)
  /-- about to look at the clock (42; 42; 103) -/
  | clk (m : M) (d : Int)
  deriving DecidableEq, Repr

/-- The object, the clock, the coroutines. (co_timed_addition.h:21-44.) -/
structure St (S M : Type) where
  base : S
  now : Int
  pc : Tid → Pc M

/-- A new object; the clock shows `n`. (Concerns co_timed_addition.h:21-44, co_counting_semaphore.h:85-105.) -/
def St.init (s0 : S) (n : Int) : St S M := ⟨s0, n, fun _ => .out⟩

/-- A step of the object; the calls of `try_lock_until` and `try_lock_for`; the yield returns; the clock is looked at; time passes. (Concerns co_timed_addition.h:21-44, co_counting_semaphore.h:85-105.) -/
inductive Act (A M : Type)
  | obj (a : A)
  | until_ (m : M) (t : Tid) (d : Int)
  | for_ (m : M) (t : Tid) (d : Int)
  | resume (t : Tid)
  | clock (t : Tid)
  | tick (n : Nat)

/-- What is seen: events of the object; a call of `try_lock_until` with deadline `d` at time `n`, of `try_lock_for` with duration `d` at
time `n`; another attempt is begun at time `n`; a timed call
returns `b` at time `n`. (Concerns co_timed_addition.h:21-44, co_counting_semaphore.h:85-105.) -/
inductive Ev (E M : Type)
  | obj (e : E)
  | call (m : M) (t : Tid) (d n : Int)
  | callFor (m : M) (t : Tid) (d n : Int)
  | again (t : Tid) (n : Int)
  | ret (t : Tid) (b : Bool) (n : Int)
  deriving DecidableEq

/-- Move `t`, in its attempt, according to what the step of the object told (co_timed_addition.h:35-41). -/
def St.after (o : Base S A E M) (s : St S M) (b : S) (t : Tid) (m : M) (d : Int) (es : List E) : St S M × List (Ev E M) :=
  match es.findSome? (o.res t) with
  | none => (⟨b, s.now, s.pc⟩, es.map .obj)
  | some true => (⟨b, s.now, upd s.pc t .out⟩, es.map .obj ++ [.ret t true s.now])
  | some false => (⟨b, s.now, upd s.pc t (.yld m d)⟩, es.map .obj)

/-- The beginning of `try_lock_until`: its first action is an attempt (co_timed_addition.h:30-35). `c` tells of the call. -/
def St.start (o : Base S A E M) (s : St S M) (c : Ev E M) (m : M) (t : Tid) (d : Int) : Option (St S M × List (Ev E M)) :=
  match s.pc t, o.step s.base (o.try_ m t) with
  | .out, some (b, es) => some (⟨b, s.now, upd s.pc t (.att m d)⟩, c :: es.map .obj)
  | _, _ => none

/-- One step. While a coroutine is in a timed call it makes no other calls. (Concerns co_timed_addition.h:21-44, co_counting_semaphore.h:85-105.) -/
def step (o : Base S A E M) (s : St S M) : Act A M → Option (St S M × List (Ev E M))
  | .obj a =>
    match s.pc (o.who a) with
    | .out => (o.step s.base a).map fun r => (⟨r.1, s.now, s.pc⟩, r.2.map .obj)
    | .att m d => if o.inside a then (o.step s.base a).map fun r => s.after o r.1 (o.who a) m d r.2 else none
    | _ => none
  | .until_ m t d => s.start o (.call m t d s.now) m t d
  -- co_timed_addition.h:21-26, co_shared_timed_mutex.h:22-26, co_counting_semaphore.h:85-90
  | .for_ m t d => s.start o (.callFor m t d s.now) m t (s.now + d)
  | .resume t =>
    match s.pc t with
    | .yld m d => some ({ s with pc := upd s.pc t (.clk m d) }, [])
    | _ => none
  -- co_timed_addition.h:42-43
  | .clock t =>
    match s.pc t with
    | .clk m d =>
      if s.now < d then
        (o.step s.base (o.try_ m t)).map fun r => (⟨r.1, s.now, upd s.pc t (.att m d)⟩, .again t s.now :: r.2.map .obj)
      else some ({ s with pc := upd s.pc t .out }, [.ret t false s.now])
    | _ => none
  | .tick n => some ({ s with now := s.now + n }, [])

/-- What the events of the object are, in order. (Concerns co_timed_addition.h:21-44, co_counting_semaphore.h:85-105.) -/
def objs : List (Ev E M) → List E
  | [] => []
  | .obj e :: es => e :: objs es
  | _ :: es => objs es

theorem objs_append (a b : List (Ev E M)) : objs (a ++ b) = objs a ++ objs b := by
  induction a with
  | nil => rfl
  | cons e a ih => cases e <;> simp [objs, ih]

theorem objs_map (a : List E) : objs (a.map (.obj : E → Ev E M)) = a := by
  induction a with
  | nil => rfl
  | cons e a ih => simp [objs, ih]

/-- Proof device: each step is at most one step of the object. -/
theorem step_proj (o : Base S A E M) (s : St S M) (x : Act A M) (s' : St S M) (es : List (Ev E M)) (h : step o s x = some (s', es)) :
    (s'.base = s.base ∧ objs es = []) ∨ ∃ a, (x = .obj a ∨ ∃ m t, a = o.try_ m t) ∧ o.step s.base a = some (s'.base, objs es) := by
  have key : ∀ c m t d, objs [c] = [] → s.start o c m t d = some (s', es) → ∃ a, (x = .obj a ∨ ∃ m t, a = o.try_ m t) ∧
      o.step s.base a = some (s'.base, objs es) := by
    intro c m t d hc h
    simp only [St.start] at h
    split at h
    · rename_i b fs _ hb
      cases h
      exact ⟨_, .inr ⟨m, t, rfl⟩, by rw [hb, ← List.singleton_append, objs_append, hc, objs_map]; rfl⟩
    · cases h
  cases x with
  | obj a =>
    right
    simp only [step] at h
    split at h
    · cases hb : o.step s.base a with
      | none => rw [hb] at h; cases h
      | some r => rw [hb] at h; cases h; exact ⟨a, .inl rfl, by rw [hb]; simp [objs_map]⟩
    · split at h
      · cases hb : o.step s.base a with
        | none => rw [hb] at h; cases h
        | some r =>
          rw [hb] at h
          simp only [Option.map_some, Option.some.injEq, St.after] at h
          split at h <;> cases h <;> exact ⟨a, .inl rfl, by rw [hb]; simp [objs_map, objs_append, objs]⟩
      · cases h
    · cases h
  | until_ m t d => exact .inr (key _ m t d rfl h)
  | for_ m t d => exact .inr (key _ m t _ rfl h)
  | resume t =>
    left
    simp only [step] at h
    split at h <;> cases h
    exact ⟨rfl, rfl⟩
  | clock t =>
    simp only [step] at h
    split at h
    · split at h
      · rename_i m d _ _
        cases hb : o.step s.base (o.try_ m t) with
        | none => rw [hb] at h; cases h
        | some r => rw [hb] at h; cases h; exact .inr ⟨_, .inr ⟨m, t, rfl⟩, by rw [hb]; simp [objs_map, objs]⟩
      · cases h; exact .inl ⟨rfl, rfl⟩
    · cases h
  | tick n => cases h; exact .inl ⟨rfl, rfl⟩

/-- C113. Whatever timed calls are made: what happens to the object is an execution of the object. So all that is proved of the object
holds with timed calls too. It consists of the clients' own calls and of attempts. -/
theorem C113_timed_is_locking (o : Base S A E M) (as : List (Act A M)) : ∀ (s s' : St S M) (es : List (Ev E M)),
    runs (step o) s as = some (s', es) → ∃ bs, runs o.step s.base bs = some (s'.base, objs es) ∧
      ∀ a ∈ bs, .obj a ∈ as ∨ ∃ m t, a = o.try_ m t := by
  induction as with
  | nil => intro s s' es h; cases h; exact ⟨[], rfl, by simp⟩
  | cons x as ih =>
    intro s s' es h
    obtain ⟨s1, e1, e2, h1, h2, rfl⟩ := runs_cons h
    obtain ⟨bs, hb, hm⟩ := ih s1 s' e2 h2
    rw [objs_append]
    have hm' : ∀ a ∈ bs, .obj a ∈ x :: as ∨ ∃ m t, a = o.try_ m t := fun a ha => (hm a ha).imp (List.mem_cons_of_mem _) id
    rcases step_proj o s x s1 e1 h1 with ⟨h3, h4⟩ | ⟨a, hx, ha⟩
    · exact ⟨bs, by rw [h4, ← h3]; exact hb, hm'⟩
    · refine ⟨a :: bs, by simp [runs, ha, hb], fun c hc => ?_⟩
      rcases List.mem_cons.1 hc with rfl | hc
      · exact hx.imp (fun h => by simp [h]) id
      · exact hm' c hc

/-! ## What a timed call does, read off the trace -/

/-- The ends of attempts of `t` in a trace. (Concerns co_timed_addition.h:21-44, co_counting_semaphore.h:85-105.) -/
def results (o : Base S A E M) (t : Tid) : List (Ev E M) → List Bool
  | [] => []
  | .obj e :: es => match o.res t e with | some b => b :: results o t es | none => results o t es
  | _ :: es => results o t es

/-- The times at which `t` began another attempt. (Concerns co_timed_addition.h:21-44, co_counting_semaphore.h:85-105.) -/
def agains (t : Tid) : List (Ev E M) → List Int
  | [] => []
  | .again u n :: es => if u = t then n :: agains t es else agains t es
  | _ :: es => agains t es

/-- Proof device: what `t` is doing according to the trace. (Concerns co_timed_addition.h:21-44, co_counting_semaphore.h:85-105.) -/
inductive QC
  | idle
  | trying (d : Int)
  | failed (d : Int)
  | won
  deriving DecidableEq

/-- Proof device: an event of somebody else, or of `t` outside attempts. (Concerns co_timed_addition.h:21-44, co_counting_semaphore.h:85-105.) -/
def other (o : Base S A E M) (t : Tid) : Ev E M → Bool
  | .obj e => (o.res t e).isNone
  | .call _ u _ _ | .callFor _ u _ _ | .again u _ | .ret u _ _ => decide (u ≠ t)

/-- Proof device: the events of a timed call of `t`. (Concerns co_timed_addition.h:21-44, co_counting_semaphore.h:85-105.) -/
def spec (o : Base S A E M) (t : Tid) : QC → Ev E M → Option QC
  | .won, .ret u b _ => if u = t ∧ b = true then some .idle else none
  | .won, _ => none
  | .idle, .obj _ => some .idle
  | .idle, .call _ u d _ => if u = t then some (.trying d) else some .idle
  | .idle, .callFor _ u d n => if u = t then some (.trying (n + d)) else some .idle
  | .idle, e => if other o t e then some .idle else none
  | .trying d, .obj e =>
    match o.res t e with
    | none => some (.trying d)
    | some true => some .won
    | some false => some (.failed d)
  | .trying d, e => if other o t e then some (.trying d) else none
  | .failed d, .again u n => if u = t then (if n < d then some (.trying d) else none) else some (.failed d)
  | .failed d, .ret u b n => if u = t then (if b = false ∧ d ≤ n then some .idle else none) else some (.failed d)
  | .failed d, e => if other o t e then some (.failed d) else none

/-- What the objects must satisfy: a step tells at most one event; the end of an attempt is told by a step of its coroutine; the call of
an attempt is a step of its coroutine and not its end. (Concerns co_timed_addition.h:21-44, co_counting_semaphore.h:85-105.) -/
structure Base.Lawful (o : Base S A E M) : Prop where
  one : ∀ s a s' es, o.step s a = some (s', es) → es.length ≤ 1
  own : ∀ s a s' es e t b, o.step s a = some (s', es) → e ∈ es → o.res t e = some b → t = o.who a
  tryWho : ∀ m t, o.who (o.try_ m t) = t
  tryNone : ∀ s m t s' es e u, o.step s (o.try_ m t) = some (s', es) → e ∈ es → o.res u e = none

/-- Proof device. (Concerns co_timed_addition.h:21-44, co_counting_semaphore.h:85-105.) -/
def Rel : Pc M → QC → Prop
  | .out, q => q = .idle
  | .att _ d, q => q = .trying d
  | .yld _ d, q | .clk _ d, q => q = .failed d

theorem quiet {o : Base S A E M} {t : Tid} {q : QC} (hq : q ≠ .won) (es : List E) (hn : q = .idle ∨ ∀ e ∈ es, o.res t e = none) :
    accepts (spec o t) q (es.map .obj) = some q := by
  induction es with
  | nil => rfl
  | cons e es ih =>
    have ih := ih (hn.imp id (fun h e he => h e (List.mem_cons_of_mem _ he)))
    have : spec o t q (.obj e) = some q := by
      rcases hn with rfl | hn
      · rfl
      · have := hn e (List.mem_cons_self ..)
        cases q <;> simp_all [spec, other]
    simp [accepts, this, ih]

theorem Rel.ne_won {p : Pc M} {q : QC} (h : Rel p q) : q ≠ .won := by
  cases p <;> (simp only [Rel] at h; subst h; simp)

theorem one_cases {α : Type} {l : List α} (h : l.length ≤ 1) : l = [] ∨ ∃ e, l = [e] := by
  rcases l with _ | ⟨e, _ | ⟨f, l⟩⟩
  · exact .inl rfl
  · exact .inr ⟨e, rfl⟩
  · simp at h

theorem spec_other {o : Base S A E M} {t : Tid} {q : QC} (hq : q ≠ .won) {e : Ev E M} (ho : other o t e = true) : spec o t q e = some q := by
  cases q with
  | won => exact absurd rfl hq
  | idle => cases e <;> simp_all [spec, other]
  | trying d => cases e <;> simp_all [spec, other]
  | failed d => cases e <;> simp_all [spec, other]

theorem step_spec {o : Base S A E M} (ho : o.Lawful) (t : Tid) (s : St S M) (x : Act A M) (s' : St S M) (es : List (Ev E M)) (q : QC)
    (hR : Rel (s.pc t) q) (h : step o s x = some (s', es)) : ∃ q', accepts (spec o t) q es = some q' ∧ Rel (s'.pc t) q' := by
  have start : ∀ c m u d, (u = t → spec o t .idle c = some (.trying d)) → (u ≠ t → spec o t q c = some q) →
      s.start o c m u d = some (s', es) → ∃ q', accepts (spec o t) q es = some q' ∧ Rel (s'.pc t) q' := by
    intro c m u d hc1 hc2 h
    simp only [St.start] at h
    split at h
    · rename_i b fs hp hb
      cases h
      have hn : ∀ e ∈ fs, o.res t e = none := fun e he => ho.tryNone _ _ _ _ _ e t hb he
      by_cases hut : u = t
      · subst hut
        rw [hp] at hR
        simp only [Rel] at hR
        subst hR
        refine ⟨.trying d, ?_, by simp [Rel]⟩
        simp only [accepts, hc1 rfl, Option.bind_some]
        exact quiet (by simp) fs (.inr hn)
      · refine ⟨q, ?_, by simpa [Ne.symm hut] using hR⟩
        simp only [accepts, hc2 hut, Option.bind_some]
        exact quiet hR.ne_won fs (.inr hn)
    · cases h
  cases x with
  | obj a =>
    simp only [step] at h
    by_cases ht : o.who a = t
    · subst ht
      cases hp : s.pc (o.who a) with
      | out =>
        rw [hp] at hR
        simp only [Rel] at hR
        subst hR
        simp only [hp] at h
        cases hb : o.step s.base a with
        | none => rw [hb] at h; cases h
        | some r =>
          rw [hb] at h; cases h
          exact ⟨.idle, quiet (by simp) _ (.inl rfl), by simp [hp, Rel]⟩
      | att m d =>
        rw [hp] at hR
        simp only [Rel] at hR
        subst hR
        simp only [hp] at h
        split at h
        · cases hb : o.step s.base a with
          | none => rw [hb] at h; cases h
          | some r =>
            rw [hb] at h
            simp only [Option.map_some, Option.some.injEq, St.after] at h
            rcases one_cases (ho.one _ _ _ _ hb) with hr | ⟨e, hr⟩
            · rw [hr] at h
              simp only [List.findSome?_nil] at h
              cases h
              exact ⟨.trying d, rfl, by simp [hp, Rel]⟩
            · rw [hr] at h
              cases hres : o.res (o.who a) e with
              | none =>
                simp only [List.findSome?_cons, hres, List.findSome?_nil] at h
                cases h
                exact ⟨.trying d, by simp [accepts, spec, hres], by simp [hp, Rel]⟩
              | some b =>
                cases b <;> simp only [List.findSome?_cons, hres] at h <;> cases h
                · exact ⟨.failed d, by simp [accepts, spec, hres], by simp [Rel]⟩
                · exact ⟨.idle, by simp [accepts, spec, hres], by simp [Rel]⟩
        · cases h
      | yld m d => simp [hp] at h
      | clk m d => simp [hp] at h
    · have hq : ∀ r : S × List E, o.step s.base a = some r → ∀ e ∈ r.2, o.res t e = none := by
        intro r hr e he
        cases hres : o.res t e with
        | none => rfl
        | some b => exact absurd (ho.own _ _ _ _ e t b hr he hres).symm ht
      split at h
      · cases hb : o.step s.base a with
        | none => rw [hb] at h; cases h
        | some r => rw [hb] at h; cases h; exact ⟨q, quiet hR.ne_won _ (.inr (hq _ hb)), hR⟩
      · split at h
        · cases hb : o.step s.base a with
          | none => rw [hb] at h; cases h
          | some r =>
            rw [hb] at h
            have h1 := quiet hR.ne_won r.2 (.inr (hq _ hb))
            simp only [Option.map_some, Option.some.injEq, St.after] at h
            split at h <;> cases h
            · exact ⟨q, h1, hR⟩
            · refine ⟨q, ?_, by simpa [Ne.symm ht] using hR⟩
              rw [accepts_append, h1]
              simp only [Option.bind_some, accepts, spec_other hR.ne_won (show other o t (.ret (o.who a) true s.now) = true by simp [other, ht])]
            · exact ⟨q, h1, by simpa [Ne.symm ht] using hR⟩
        · cases h
      · cases h
  | until_ m u d =>
    refine start _ m u d (fun hu => by simp [spec, hu]) (fun hu => spec_other hR.ne_won (by simp [other, hu])) h
  | for_ m u d =>
    refine start _ m u _ (fun hu => by simp [spec, hu]) (fun hu => spec_other hR.ne_won (by simp [other, hu])) h
  | resume u =>
    simp only [step] at h
    split at h <;> cases h
    rename_i m d hp
    refine ⟨q, rfl, ?_⟩
    by_cases hut : u = t
    · subst hut; rw [hp] at hR; simpa [Rel] using hR
    · simpa [Ne.symm hut] using hR
  | clock u =>
    simp only [step] at h
    split at h
    · rename_i m d hp
      split at h
      · rename_i hlt
        cases hb : o.step s.base (o.try_ m u) with
        | none => rw [hb] at h; cases h
        | some r =>
          rw [hb] at h; cases h
          have hn : ∀ e ∈ r.2, o.res t e = none := fun e he => ho.tryNone _ _ _ _ _ e t hb he
          by_cases hut : u = t
          · subst hut
            rw [hp] at hR
            simp only [Rel] at hR
            subst hR
            refine ⟨.trying d, ?_, by simp [Rel]⟩
            simp only [accepts, spec, if_true, hlt, Option.bind_some]
            exact quiet (by simp) _ (.inr hn)
          · refine ⟨q, ?_, by simpa [Ne.symm hut] using hR⟩
            have : spec o t q (.again u s.now) = some q :=
              spec_other hR.ne_won (by simp [other, hut])
            simp only [accepts, this, Option.bind_some]
            exact quiet hR.ne_won _ (.inr hn)
      · rename_i hge
        cases h
        by_cases hut : u = t
        · subst hut
          rw [hp] at hR
          simp only [Rel] at hR
          subst hR
          exact ⟨.idle, by simp [accepts, spec]; omega, by simp [Rel]⟩
        · refine ⟨q, ?_, by simpa [Ne.symm hut] using hR⟩
          simp only [Option.bind_some, accepts, spec_other hR.ne_won (show other o t (.ret u false s.now) = true by simp [other, hut])]
    · cases h
  | tick n => cases h; exact ⟨q, rfl, hR⟩

theorem results_append (o : Base S A E M) (t : Tid) (a b : List (Ev E M)) : results o t (a ++ b) = results o t a ++ results o t b := by
  induction a with
  | nil => rfl
  | cons e a ih =>
    cases e with
    | obj e => simp only [List.cons_append, results, ih]; split <;> simp
    | _ => simp only [List.cons_append, results, ih]

theorem agains_append (t : Tid) (a b : List (Ev E M)) : agains t (a ++ b) = agains t a ++ agains t b := by
  induction a with
  | nil => rfl
  | cons e a ih =>
    cases e with
    | again u n => simp only [List.cons_append, agains, ih]; split <;> simp
    | _ => simp only [List.cons_append, agains, ih]

/-- Proof device: what is known in the middle of a timed call. (Concerns co_timed_addition.h:21-44, co_counting_semaphore.h:85-105.) -/
def Mid (o : Base S A E M) (t : Tid) (d : Int) (mid : List (Ev E M)) (q : QC) : Prop :=
  (∀ n ∈ agains t mid, n < d) ∧
  ((q = .trying d ∧ results o t mid = List.replicate (agains t mid).length false) ∨
   (q = .failed d ∧ results o t mid = List.replicate ((agains t mid).length + 1) false) ∨
   (q = .won ∧ results o t mid = List.replicate (agains t mid).length false ++ [true] ∧
      ∃ m e, mid = m ++ [.obj e] ∧ o.res t e = some true))

theorem other_snoc {o : Base S A E M} {t : Tid} {e : Ev E M} (h : other o t e = true) :
    results o t [e] = [] ∧ agains t [e] = [] := by
  cases e with
  | obj e => simp only [other, Option.isNone_iff_eq_none] at h; simp [results, agains, h]
  | _ => simp_all [other, results, agains]

theorem mid_spec (o : Base S A E M) (t : Tid) (d : Int) (mid : List (Ev E M)) : ∀ q, accepts (spec o t) (.trying d) mid = some q →
    (∀ b n, .ret t b n ∉ mid) → Mid o t d mid q := by
  induction mid using list_snoc with
  | nil => intro q h _; cases h; exact ⟨by simp [agains], .inl ⟨rfl, rfl⟩⟩
  | snoc mid e ih =>
    intro q h hn
    rw [accepts_append] at h
    cases h1 : accepts (spec o t) (.trying d) mid with
    | none => simp [h1] at h
    | some q1 =>
      obtain ⟨i1, i2⟩ := ih q1 h1 (fun b n hm => hn b n (List.mem_append_left _ hm))
      simp only [h1, Option.bind_some, accepts] at h
      have he : ∀ b n, e ≠ .ret t b n := fun b n hb => hn b n (by simp [hb])
      unfold Mid
      rw [results_append, agains_append]
      by_cases ho : other o t e = true
      · obtain ⟨h2, h3⟩ := other_snoc ho
        rw [h2, h3, List.append_nil, List.append_nil]
        have : q = q1 ∧ q1 ≠ .won := by
          rcases i2 with ⟨rfl, _⟩ | ⟨rfl, _⟩ | ⟨rfl, _⟩
          · refine ⟨?_, by simp⟩
            clear ih h1
            cases e <;> simp_all [spec, other]
          · refine ⟨?_, by simp⟩
            clear ih h1
            cases e <;> simp_all [spec, other]
          · clear ih h1
            cases e <;> simp_all [spec, other]
        obtain ⟨rfl, hw⟩ := this
        refine ⟨i1, ?_⟩
        rcases i2 with h | h | h
        · exact .inl h
        · exact .inr (.inl h)
        · exact absurd h.1 hw
      · cases e with
        | obj e =>
          have hres : ∃ b, o.res t e = some b := by
            cases hb : o.res t e with
            | none => simp [other, hb] at ho
            | some b => exact ⟨b, rfl⟩
          obtain ⟨b, hres⟩ := hres
          simp only [agains, List.append_nil]
          refine ⟨i1, ?_⟩
          rcases i2 with ⟨rfl, i2⟩ | ⟨rfl, i2⟩ | ⟨rfl, i2⟩
          · cases b
            · simp only [spec, hres, Option.bind_some, Option.some.injEq] at h
              refine .inr (.inl ⟨h.symm, ?_⟩)
              rw [i2, List.replicate_succ']
              simp [results, hres]
            · simp only [spec, hres, Option.bind_some, Option.some.injEq] at h
              exact .inr (.inr ⟨h.symm, by rw [i2]; simp [results, hres], mid, e, rfl, hres⟩)
          · simp [spec, other, hres] at h
          · simp [spec] at h
        | call m u d' n | callFor m u d' n =>
          simp [other] at ho
          subst ho
          rcases i2 with ⟨rfl, i2⟩ | ⟨rfl, i2⟩ | ⟨rfl, i2⟩ <;> simp [spec, other] at h
        | again u n =>
          simp [other] at ho
          subst ho
          rcases i2 with ⟨rfl, i2⟩ | ⟨rfl, i2⟩ | ⟨rfl, i2⟩
          · simp [spec, other] at h
          · simp only [spec, if_true] at h
            split at h
            · rename_i hlt
              simp only [Option.bind_some, Option.some.injEq] at h
              simp only [agains, if_true, results, List.append_nil, List.length_append, List.length_singleton]
              refine ⟨?_, .inl ⟨h.symm, i2⟩⟩
              intro k hk
              rcases List.mem_append.1 hk with hk | hk
              · exact i1 k hk
              · simp at hk; omega
            · simp at h
          · simp [spec] at h
        | ret u b n =>
          simp [other] at ho
          subst ho
          exact absurd rfl (he b n)

/-- C113, what a timed call does. It makes attempts until one succeeds or the deadline is seen to have passed: all attempts but the last
failed, and the last succeeded if and only if the call returns true; it then returns at once. Every attempt but the first was begun before
the deadline. It returns false at the deadline or later. (`c` is the call, `d` its deadline: the given one, or the time of the call plus
the given duration.) -/
theorem C113_outcome (o : Base S A E M) (ho : o.Lawful) (s0 : S) (n0 : Int) (as : List (Act A M)) (s : St S M)
    (pre mid post : List (Ev E M)) (t : Tid) (m : M) (d n n' : Int) (b : Bool)
    (c : Ev E M) (hc : c = .call m t d n ∨ c = .callFor m t (d - n) n)
    (h : runs (step o) (St.init s0 n0) as = some (s, pre ++ c :: mid ++ .ret t b n' :: post))
    (hn : ∀ b n, .ret t b n ∉ mid) :
    results o t mid = List.replicate (agains t mid).length false ++ [b] ∧ (∀ x ∈ agains t mid, x < d) ∧
    (b = true → ∃ mid' e, mid = mid' ++ [.obj e] ∧ o.res t e = some true) ∧ (b = false → d ≤ n') := by
  obtain ⟨q, hq, _⟩ := runs_sim (fun (s : St S M) q => Rel (s.pc t) q)
    (fun s x s' es q hR hs => step_spec ho t s x s' es q hR hs) as _ _ _ .idle (by simp [St.init, Rel]) h
  have e : pre ++ c :: mid ++ .ret t b n' :: post = pre ++ ([c] ++ (mid ++ ([.ret t b n'] ++ post))) := by simp
  rw [e, accepts_append] at hq
  obtain ⟨q1, -, hq⟩ := Option.bind_eq_some_iff.1 hq
  rw [accepts_append] at hq
  obtain ⟨q2, h2, hq⟩ := Option.bind_eq_some_iff.1 hq
  rw [accepts_append] at hq
  obtain ⟨q3, h3, hq⟩ := Option.bind_eq_some_iff.1 hq
  rw [accepts_append] at hq
  obtain ⟨q4, h4, -⟩ := Option.bind_eq_some_iff.1 hq
  have : q2 = .trying d := by
    rcases hc with rfl | rfl
    · cases q1 <;> simp [accepts, spec, other] at h2
      exact h2.symm
    · cases q1 <;> simp [accepts, spec, other] at h2
      rw [← h2]
      congr 1
      omega
  subst this
  obtain ⟨i1, i2⟩ := mid_spec o t d mid q3 h3 hn
  rcases i2 with ⟨rfl, i2⟩ | ⟨rfl, i2⟩ | ⟨rfl, i2, i3⟩
  · simp [accepts, spec, other] at h4
  · simp only [accepts, spec, if_true] at h4
    split at h4
    · rename_i hb
      obtain ⟨rfl, hb⟩ := hb
      exact ⟨by rw [i2, List.replicate_succ'], i1, by simp, fun _ => hb⟩
    · simp at h4
  · simp only [accepts, spec] at h4
    split at h4
    · rename_i hb
      obtain ⟨-, rfl⟩ := hb
      exact ⟨i2, i1, fun _ => i3, by simp⟩
    · simp at h4

/-! ## It returns after the deadline -/

/-- Is it a step of `t`? (Concerns co_timed_addition.h:21-44, co_counting_semaphore.h:85-105.) -/
def by_ (o : Base S A E M) (t : Tid) : Act A M → Bool
  | .obj a => decide (o.who a = t)
  | .until_ _ u _ | .for_ _ u _ | .resume u | .clock u => decide (u = t)
  | .tick _ => false

/-- The deadline of the timed call a coroutine is in. (Concerns co_timed_addition.h:21-44, co_counting_semaphore.h:85-105.) -/
def Pc.deadline : Pc M → Option Int
  | .out => none
  | .att _ d | .yld _ d | .clk _ d => some d

/-- An attempt takes at most `K + 1` steps of its coroutine: `rank s t` bounds what is left of it, `none` if `t` is in no attempt. (Concerns co_timed_addition.h:21-44, co_counting_semaphore.h:85-105.) -/
structure Base.Bounded (o : Base S A E M) (K : Nat) (rank : S → Tid → Option Nat) : Prop where
  start : ∀ s m t s' es, o.step s (o.try_ m t) = some (s', es) → ∃ r, r ≤ K ∧ rank s' t = some r
  next : ∀ s a s' es r, o.step s a = some (s', es) → o.inside a = true → rank s (o.who a) = some r →
    (∃ e ∈ es, ∃ b, o.res (o.who a) e = some b) ∨ ∃ r', r' < r ∧ rank s' (o.who a) = some r'
  keep : ∀ s a s' es t, o.step s a = some (s', es) → o.who a ≠ t → rank s' t = rank s t

/-- Proof device: an upper bound of the steps left when the deadline has passed. (Concerns co_timed_addition.h:21-44, co_counting_semaphore.h:85-105.) -/
def left (rank : S → Tid → Option Nat) (s : St S M) (t : Tid) : Nat :=
  match s.pc t with
  | .out => 0
  | .att _ _ => (rank s.base t).getD 0 + 3
  | .yld _ _ => 2
  | .clk _ _ => 1

/-- Proof device. (Concerns co_timed_addition.h:21-44, co_counting_semaphore.h:85-105.) -/
def InAtt (K : Nat) (rank : S → Tid → Option Nat) (s : St S M) (t : Tid) : Prop :=
  ∀ m d, s.pc t = .att m d → ∃ r, r ≤ K ∧ rank s.base t = some r

theorem findSome_ne_none {f : E → Option Bool} {l : List E} {e : E} {b : Bool} (he : e ∈ l) (hb : f e = some b) : l.findSome? f ≠ none := by
  intro h
  rw [List.findSome?_eq_none_iff] at h
  rw [h e he] at hb
  cases hb

theorem bound_step {o : Base S A E M} (ho : o.Lawful) {K : Nat} {rank : S → Tid → Option Nat} (hB : o.Bounded K rank) (t : Tid)
    (s : St S M) (x : Act A M) (s' : St S M) (es : List (Ev E M)) (hA : InAtt K rank s t) (h : step o s x = some (s', es)) :
    InAtt K rank s' t ∧ s.now ≤ s'.now ∧ ∀ d, (s.pc t).deadline = some d →
      (∃ b n, .ret t b n ∈ es) ∨ ((s'.pc t).deadline = some d ∧
        (d ≤ s.now → left rank s' t + (if by_ o t x then 1 else 0) ≤ left rank s t)) := by
  have start : ∀ c m u d, s.start o c m u d = some (s', es) → InAtt K rank s' t ∧ s.now ≤ s'.now ∧ ∀ d', (s.pc t).deadline = some d' →
      u ≠ t ∧ (s'.pc t).deadline = some d' ∧ left rank s' t = left rank s t := by
    intro c m u d h
    simp only [St.start] at h
    split at h
    · rename_i b fs hp hb
      cases h
      by_cases hut : u = t
      · subst hut
        refine ⟨fun m' d' _ => hB.start _ _ _ _ _ hb, Int.le_refl _, fun d' hd => ?_⟩
        rw [hp] at hd
        cases hd
      · have hk := hB.keep _ _ _ _ t hb (by rw [ho.tryWho]; exact hut)
        refine ⟨fun m' d' h' => ?_, Int.le_refl _, fun d' hd => ⟨hut, by simpa [Ne.symm hut] using hd, ?_⟩⟩
        · simp only [upd_other _ _ (Ne.symm hut)] at h'
          rw [hk]
          exact hA _ _ h'
        · simp [left, Ne.symm hut, hk]
    · cases h
  cases x with
  | obj a =>
    simp only [step] at h
    by_cases ht : o.who a = t
    · subst ht
      cases hp : s.pc (o.who a) with
      | out =>
        simp only [hp] at h
        cases hb : o.step s.base a with
        | none => rw [hb] at h; cases h
        | some r =>
          rw [hb] at h; cases h
          exact ⟨fun m d h' => (by rw [hp] at h'; cases h'), Int.le_refl _, fun d hd => (by simp_all [Pc.deadline])⟩
      | att m d =>
        obtain ⟨r, hr, hrk⟩ := hA m d hp
        simp only [hp] at h
        split at h
        · rename_i hin
          cases hb : o.step s.base a with
          | none => rw [hb] at h; cases h
          | some p =>
            have hx := hB.next _ _ _ _ r hb hin hrk
            rw [hb] at h
            simp only [Option.map_some, Option.some.injEq, St.after] at h
            split at h
            · rename_i hnone
              cases h
              rcases hx with ⟨e, he, b, hres⟩ | ⟨r', hlt, hrk'⟩
              · exact absurd hnone (findSome_ne_none he hres)
              · refine ⟨fun m' d' _ => ⟨r', by omega, hrk'⟩, Int.le_refl _, fun d' hd => .inr ⟨by simpa [hp] using hd, fun _ => ?_⟩⟩
                simp [left, hp, hrk, hrk', by_]
                omega
            · cases h
              exact ⟨fun m' d' h' => by simp at h', Int.le_refl _, fun d' hd => .inl ⟨true, s.now, by simp⟩⟩
            · cases h
              refine ⟨fun m' d' h' => by simp at h', Int.le_refl _, fun d' hd => .inr ⟨by simpa [Pc.deadline] using hd, fun _ => ?_⟩⟩
              simp [left, hp, hrk, by_]
        · cases h
      | yld m d => simp [hp] at h
      | clk m d => simp [hp] at h
    · have goal : ∀ (b : S) (pc : Tid → Pc M) fs, o.step s.base a = some (b, fs) → pc t = s.pc t → s' = ⟨b, s.now, pc⟩ →
          InAtt K rank s' t ∧ s.now ≤ s'.now ∧ ∀ d, (s.pc t).deadline = some d →
            (∃ b n, .ret t b n ∈ es) ∨ ((s'.pc t).deadline = some d ∧
              (d ≤ s.now → left rank s' t + (if by_ o t (.obj a : Act A M) then 1 else 0) ≤ left rank s t)) := by
        rintro b pc fs hb hpc rfl
        have hk := hB.keep _ _ _ _ t hb ht
        refine ⟨fun m d h' => ?_, Int.le_refl _, fun d hd => .inr ⟨?_, fun _ => ?_⟩⟩
        · simp only [hpc] at h'; simp only [hk]; exact hA m d h'
        · simp only [hpc]; exact hd
        · simp [left, hpc, hk, by_, ht]
      split at h
      · cases hb : o.step s.base a with
        | none => rw [hb] at h; cases h
        | some r =>
          rw [hb] at h
          simp only [Option.map_some, Option.some.injEq, Prod.mk.injEq] at h
          exact goal r.1 _ r.2 hb rfl h.1.symm
      · split at h
        · cases hb : o.step s.base a with
          | none => rw [hb] at h; cases h
          | some r =>
            rw [hb] at h
            simp only [Option.map_some, Option.some.injEq, St.after] at h
            split at h <;> simp only [Prod.mk.injEq] at h
            · exact goal r.1 _ r.2 hb rfl h.1.symm
            · exact goal r.1 _ r.2 hb (upd_other _ _ (Ne.symm ht)) h.1.symm
            · exact goal r.1 _ r.2 hb (upd_other _ _ (Ne.symm ht)) h.1.symm
        · cases h
      · cases h
  | until_ m u d =>
    obtain ⟨h1, h2, h3⟩ := start _ m u d h
    refine ⟨h1, h2, fun d' hd => ?_⟩
    obtain ⟨h4, h5, h6⟩ := h3 d' hd
    exact .inr ⟨h5, fun _ => by simp [by_, h4, h6]⟩
  | for_ m u d =>
    obtain ⟨h1, h2, h3⟩ := start _ m u _ h
    refine ⟨h1, h2, fun d' hd => ?_⟩
    obtain ⟨h4, h5, h6⟩ := h3 d' hd
    exact .inr ⟨h5, fun _ => by simp [by_, h4, h6]⟩
  | resume u =>
    simp only [step] at h
    split at h <;> cases h
    rename_i m d hp
    by_cases hut : u = t
    · subst hut
      refine ⟨fun m' d' h' => by simp at h', Int.le_refl _, fun d' hd => .inr ⟨by simpa [hp, Pc.deadline] using hd, fun _ => ?_⟩⟩
      simp [left, hp, by_]
    · refine ⟨fun m' d' h' => ?_, Int.le_refl _, fun d' hd => .inr ⟨by simpa [Ne.symm hut] using hd, fun _ => ?_⟩⟩
      · simp only [upd_other _ _ (Ne.symm hut)] at h'; exact hA _ _ h'
      · simp [left, Ne.symm hut, by_, hut]
  | clock u =>
    simp only [step] at h
    split at h
    · rename_i m d hp
      split at h
      · rename_i hlt
        cases hb : o.step s.base (o.try_ m u) with
        | none => rw [hb] at h; cases h
        | some r =>
          rw [hb] at h; cases h
          by_cases hut : u = t
          · subst hut
            refine ⟨fun m' d' _ => hB.start _ _ _ _ _ hb, Int.le_refl _, fun d' hd => .inr ⟨by simpa [hp, Pc.deadline] using hd, fun hd' => ?_⟩⟩
            rw [hp] at hd
            simp only [Pc.deadline, Option.some.injEq] at hd
            omega
          · have hk := hB.keep _ _ _ _ t hb (by rw [ho.tryWho]; exact hut)
            refine ⟨fun m' d' h' => ?_, Int.le_refl _, fun d' hd => .inr ⟨by simpa [Ne.symm hut] using hd, fun _ => ?_⟩⟩
            · simp only [upd_other _ _ (Ne.symm hut)] at h'
              rw [hk]
              exact hA _ _ h'
            · simp [left, Ne.symm hut, hk, by_, hut]
      · cases h
        by_cases hut : u = t
        · subst hut
          exact ⟨fun m' d' h' => by simp at h', Int.le_refl _, fun d' hd => .inl ⟨false, s.now, by simp⟩⟩
        · refine ⟨fun m' d' h' => ?_, Int.le_refl _, fun d' hd => .inr ⟨by simpa [Ne.symm hut] using hd, fun _ => ?_⟩⟩
          · simp only [upd_other _ _ (Ne.symm hut)] at h'; exact hA _ _ h'
          · simp [left, Ne.symm hut, by_, hut]
    · cases h
  | tick n =>
    cases h
    exact ⟨hA, by simp only; omega, fun d hd => .inr ⟨hd, fun _ => by simp [left, by_]⟩⟩

/-- C113, it does not go on after the deadline. When the deadline has passed, a timed call has returned before its coroutine has made
`K + 3` more steps, whatever the others do; `K + 1` is the length of an attempt. -/
theorem C113_returns_after_deadline (o : Base S A E M) (ho : o.Lawful) (K : Nat) (rank : S → Tid → Option Nat) (hB : o.Bounded K rank)
    (s0 : S) (n0 : Int) (as bs : List (Act A M)) (s s' : St S M) (es fs : List (Ev E M)) (t : Tid) (d : Int)
    (h : runs (step o) (St.init s0 n0) as = some (s, es)) (hd : (s.pc t).deadline = some d) (hn : d ≤ s.now)
    (h' : runs (step o) s bs = some (s', fs)) (hc : K + 3 ≤ bs.countP (by_ o t)) : ∃ b n, .ret t b n ∈ fs := by
  have hA : InAtt K rank s t := runs_inv (fun s => InAtt K rank s t)
    (fun s x s' es hA hs => (bound_step ho hB t s x s' es hA hs).1) as _ s es (fun m d h => by simp [St.init] at h) h
  have key : ∀ (bs : List (Act A M)) (s s' : St S M) (fs : List (Ev E M)), runs (step o) s bs = some (s', fs) → InAtt K rank s t →
      (s.pc t).deadline = some d → d ≤ s.now →
      (∃ b n, .ret t b n ∈ fs) ∨ ((s'.pc t).deadline = some d ∧ left rank s' t + bs.countP (by_ o t) ≤ left rank s t) := by
    intro bs
    induction bs with
    | nil => intro s s' fs h _ hd _; cases h; exact .inr ⟨hd, by simp⟩
    | cons x bs ih =>
      intro s s' fs h hA hd hn
      obtain ⟨s1, e1, e2, h1, h2, rfl⟩ := runs_cons h
      obtain ⟨i1, i2, i3⟩ := bound_step ho hB t s x s1 e1 hA h1
      rcases i3 d hd with ⟨b, n, hb⟩ | ⟨i4, i5⟩
      · exact .inl ⟨b, n, List.mem_append_left _ hb⟩
      · rcases ih s1 s' e2 h2 i1 i4 (by omega) with ⟨b, n, hb⟩ | ⟨j1, j2⟩
        · exact .inl ⟨b, n, List.mem_append_right _ hb⟩
        · refine .inr ⟨j1, ?_⟩
          have := i5 hn
          rw [List.countP_cons]
          omega
  rcases key bs s s' fs h' hA hd hn with hh | ⟨h1, h2⟩
  · exact hh
  · exfalso
    have h3 : 1 ≤ left rank s' t := by
      unfold left
      cases hp : s'.pc t <;> simp [hp, Pc.deadline] at h1 ⊢
    have h4 : left rank s t ≤ K + 3 := by
      unfold left
      cases hp : s.pc t with
      | att m e => obtain ⟨r, hr, hrk⟩ := hA m e hp; simp [hrk, hr]
      | _ => simp
    omega

end

/-! ## The objects -/

/-- `co_timed_mutex` (co_timed_mutex.h). -/
def mutex : Base Mutex.St Mutex.Act LockSpec.Ev Unit where
  step := Mutex.step false
  who | .callLock t | .callTry t | .callUnlock t | .run t _ => t
  inside | .run _ _ => true | _ => false
  try_ _ t := .callTry t
  res t | .acq u => if u = t then some true else none | .tryFail u => if u = t then some false else none | _ => none

/-- `co_recursive_timed_mutex` (co_recursive_timed_mutex.h). -/
def recMutex : Base RecMutex.St RecMutex.Act LockSpec.Ev Unit where
  step := RecMutex.step
  who | .callLock t | .callTry t | .callUnlock t | .run t _ => t
  inside | .run _ _ => true | _ => false
  try_ _ t := .callTry t
  res t | .acq u => if u = t then some true else none | .tryFail u => if u = t then some false else none | _ => none

/-- `co_shared_timed_mutex` (co_shared_timed_mutex.h); `try_lock_until` and `try_lock_shared_until`. -/
def sharedMutex : Base SharedMutex.St SharedMutex.Act RwSpec.Ev RwSpec.Mode where
  step := SharedMutex.step
  who | .callLock _ t | .callTry _ t | .callUnlock _ t | .run t _ => t
  inside | .run _ _ => true | _ => false
  try_ m t := .callTry m t
  res t | .acq _ u => if u = t then some true else none | .tryFail _ u => if u = t then some false else none | _ => none

/-- `co_counting_semaphore` with `try_acquire_until`, over the real mutex and condition variables. (Concerns co_timed_addition.h:21-44, co_counting_semaphore.h:85-105.) -/
def semaphore (M : Int) : Base (Monitor.Full Int Semaphore.Cv Semaphore.Op Bool) (Monitor.FAct Semaphore.Op)
    (Monitor.Ev Semaphore.Op Bool Semaphore.Lin) Unit where
  step := Monitor.Full.step (Semaphore.obj M)
  who | .call t _ | .run t _ => t
  inside | .run _ _ => true | _ => false
  try_ _ t := .call t .tryAcquire
  res t | .ret u b => if u = t then some b else none | _ => none

theorem mutex_lawful : mutex.Lawful := by
  refine ⟨?_, ?_, fun _ _ => rfl, ?_⟩
  · intro s a s' es h
    cases a <;> simp only [mutex, Mutex.step, Mutex.runStep, Mutex.St.acquire] at h <;> (repeat' split at h) <;> simp at h <;>
      (obtain ⟨_, rfl⟩ := h; simp)
  · intro s a s' es e t b h he hr
    cases a <;> simp only [mutex, Mutex.step, Mutex.runStep, Mutex.St.acquire] at h hr ⊢ <;> (repeat' split at h) <;> simp at h <;>
      (obtain ⟨_, rfl⟩ := h; simp at he) <;> (subst he; grind)
  · intro s m t s' es e u h he
    simp only [mutex, Mutex.step] at h
    split at h <;> simp at h
    obtain ⟨_, rfl⟩ := h
    simp at he

theorem recMutex_lawful : recMutex.Lawful := by
  refine ⟨?_, ?_, fun _ _ => rfl, ?_⟩
  · intro s a s' es h
    cases a <;> simp only [recMutex, RecMutex.step, RecMutex.runStep, RecMutex.St.acquire] at h <;> (repeat' split at h) <;> simp at h <;>
      (obtain ⟨_, rfl⟩ := h; simp)
  · intro s a s' es e t b h he hr
    cases a <;> simp only [recMutex, RecMutex.step, RecMutex.runStep, RecMutex.St.acquire] at h hr ⊢ <;> (repeat' split at h) <;> simp at h <;>
      (obtain ⟨_, rfl⟩ := h; simp at he) <;> (subst he; grind)
  · intro s m t s' es e u h he
    simp only [recMutex, RecMutex.step] at h
    split at h <;> simp at h
    obtain ⟨_, rfl⟩ := h
    simp at he

theorem sharedMutex_lawful : sharedMutex.Lawful := by
  refine ⟨?_, ?_, fun _ _ => rfl, ?_⟩
  · intro s a s' es h
    cases a <;> simp only [sharedMutex, SharedMutex.step, SharedMutex.runStep, SharedMutex.St.acquire] at h <;> (repeat' split at h) <;> simp at h <;>
      (obtain ⟨_, rfl⟩ := h; simp)
  · intro s a s' es e t b h he hr
    cases a <;> simp only [sharedMutex, SharedMutex.step, SharedMutex.runStep, SharedMutex.St.acquire] at h hr ⊢ <;> (repeat' split at h) <;> simp at h <;>
      (obtain ⟨_, rfl⟩ := h; simp at he) <;> (subst he; grind)
  · intro s m t s' es e u h he
    simp only [sharedMutex, SharedMutex.step] at h
    split at h <;> simp at h
    obtain ⟨_, rfl⟩ := h
    simp at he

theorem sem_low (M : Int) (f : Monitor.Low Int Semaphore.Cv Semaphore.Op Bool) (t : Tid) (r : Monitor.Low Int Semaphore.Cv Semaphore.Op Bool)
    (es : List (Monitor.Ev Semaphore.Op Bool Semaphore.Lin)) (h : f.runStep (Semaphore.obj M) t = some (r, es)) :
    es.length ≤ 1 ∧ ∀ u b, .ret u b ∈ es → u = t := by
  simp only [Monitor.Low.runStep] at h
  split at h
  case h_3 k _ =>
    cases h
    have : ((Semaphore.obj M).body t k f.sh).ev.length ≤ 1 := by
      cases k <;> simp only [Semaphore.obj] <;> split <;> simp
    exact ⟨by simpa using this, by simp⟩
  all_goals (repeat' split at h) <;> simp at h <;> (try (obtain ⟨_, rfl⟩ := h; simp))

theorem sem_unlocked (f : Monitor.Low Int Semaphore.Cv Semaphore.Op Bool) (t : Tid) :
    (f.unlocked (E := Semaphore.Lin) t).2.length ≤ 1 ∧ ∀ u b, .ret u b ∈ (f.unlocked (E := Semaphore.Lin) t).2 → u = t := by
  simp only [Monitor.Low.unlocked]
  split <;> simp

theorem sem_step (M : Int) (f f' : Monitor.Full Int Semaphore.Cv Semaphore.Op Bool) (a : Monitor.FAct Semaphore.Op)
    (es : List (Monitor.Ev Semaphore.Op Bool Semaphore.Lin)) (h : f.step (Semaphore.obj M) a = some (f', es)) :
    es.length ≤ 1 ∧ ∀ u b, .ret u b ∈ es → u = (semaphore M).who a := by
  cases a with
  | call t k =>
    simp only [Monitor.Full.step] at h
    split at h <;> cases h
    simp
  | run t b =>
    simp only [Monitor.Full.step, Monitor.Full.runStep] at h
    split at h
    · split at h
      · cases hm : Mutex.step true f.mx (.callLock t) with
        | none => rw [hm] at h; cases h
        | some r => rw [hm] at h; cases h; simp
      · split at h
        · cases h
        · cases h; simp
      · split at h
        · cases hm : Mutex.step true f.mx (.callUnlock t) with
          | none => rw [hm] at h; cases h
          | some r => rw [hm] at h; cases h; simp
        · cases hm : f.low.runStep (Semaphore.obj M) t with
          | none => rw [hm] at h; cases h
          | some r => rw [hm] at h; cases h; exact sem_low M _ _ _ _ hm
    · split at h
      · cases h
      · split at h
        · cases h
        · split at h
          · simp only [Monitor.Full.back] at h
            split at h
            · cases h; simp
            · cases h; exact sem_unlocked f.low t
            · cases h; simp
          · cases h; simp

theorem semaphore_lawful (M : Int) : (semaphore M).Lawful := by
  refine ⟨fun s a s' es h => (sem_step M s s' a es h).1, ?_, fun _ _ => rfl, ?_⟩
  · intro s a s' es e t b h he hr
    have := (sem_step M s s' a es h).2
    cases e with
    | ret u c =>
      have h1 := this u c he
      simp only [semaphore] at hr h1 ⊢
      split at hr
      · rename_i hu; rw [← hu]; exact h1
      · cases hr
    | _ => simp [semaphore] at hr
  · intro s m t s' es e u h he
    simp only [semaphore, Monitor.Full.step] at h
    split at h <;> cases h
    simp at he
    subst he
    rfl

/-- Steps left of `try_lock()` (co_mutex.cpp:74-83). -/
def mutexRank (s : Mutex.St) (t : Tid) : Option Nat :=
  match s.pc t with | .tlAcq => some 2 | .tlTest => some 1 | .tlRet _ => some 0 | _ => none

/-- Steps left of `try_lock()` (co_recursive_mutex.cpp:65-77). -/
def recRank (s : RecMutex.St) (t : Tid) : Option Nat :=
  match s.pc t with | .tlAcq => some 2 | .tlTest => some 1 | .tlRet _ => some 0 | _ => none

/-- Steps left of `try_lock()`, `try_lock_shared()` (co_shared_mutex.cpp:70-84, 155-169). -/
def sharedRank (s : SharedMutex.St) (t : Tid) : Option Nat :=
  match s.pc t with | .tlAcq _ => some 2 | .tlTest _ => some 1 | .tlRet _ _ => some 0 | _ => none

theorem mutex_bounded : mutex.Bounded 2 mutexRank := by
  refine ⟨?_, ?_, ?_⟩
  · intro s m t s' es h
    simp only [mutex, Mutex.step] at h
    split at h <;> cases h
    exact ⟨2, by omega, by simp [mutexRank, Mutex.St.goto]⟩
  · intro s a s' es r h hi hr
    cases a <;> simp [mutex] at hi
    rename_i t b
    simp only [mutex, Mutex.step, Mutex.runStep, mutexRank] at h hr ⊢
    cases hp : s.pc t <;> simp only [hp] at h hr <;> simp at hr <;> subst hr
    · simp only [Mutex.St.acquire] at h
      split at h <;> cases h
      simp
    · split at h <;> cases h <;> simp [Mutex.St.goto]
    · cases h
      rename_i b
      cases b <;> simp
  · intro s a s' es t h ht
    cases a <;> simp only [mutex, Mutex.step, Mutex.runStep, Mutex.St.acquire] at h ht <;> (repeat' split at h) <;> simp at h <;>
      (obtain ⟨rfl, _⟩ := h; simp [mutexRank, Mutex.St.goto, Ne.symm ht])

theorem recMutex_bounded : recMutex.Bounded 2 recRank := by
  refine ⟨?_, ?_, ?_⟩
  · intro s m t s' es h
    simp only [recMutex, RecMutex.step] at h
    split at h <;> cases h
    exact ⟨2, by omega, by simp [recRank, RecMutex.St.goto]⟩
  · intro s a s' es r h hi hr
    cases a <;> simp [recMutex] at hi
    rename_i t b
    simp only [recMutex, RecMutex.step, RecMutex.runStep, recRank] at h hr ⊢
    cases hp : s.pc t <;> simp only [hp] at h hr <;> simp at hr <;> subst hr
    · simp only [RecMutex.St.acquire] at h
      split at h <;> cases h
      simp
    · split at h <;> cases h <;> simp [RecMutex.St.goto, RecMutex.St.take]
    · cases h
      rename_i b
      cases b <;> simp
  · intro s a s' es t h ht
    cases a <;> simp only [recMutex, RecMutex.step, RecMutex.runStep, RecMutex.St.acquire] at h ht <;> (repeat' split at h) <;> simp at h <;>
      (obtain ⟨rfl, _⟩ := h; simp [recRank, RecMutex.St.goto, RecMutex.St.take, Ne.symm ht])

theorem sharedMutex_bounded : sharedMutex.Bounded 2 sharedRank := by
  refine ⟨?_, ?_, ?_⟩
  · intro s m t s' es h
    simp only [sharedMutex, SharedMutex.step] at h
    split at h <;> cases h
    exact ⟨2, by omega, by simp [sharedRank, SharedMutex.St.goto]⟩
  · intro s a s' es r h hi hr
    cases a <;> simp [sharedMutex] at hi
    rename_i t b
    simp only [sharedMutex, SharedMutex.step, SharedMutex.runStep, sharedRank] at h hr ⊢
    cases hp : s.pc t <;> simp only [hp] at h hr <;> simp at hr <;> subst hr
    · simp only [SharedMutex.St.acquire] at h
      split at h <;> cases h
      simp
    · split at h <;> cases h <;> simp [SharedMutex.St.goto, SharedMutex.St.take]
    · cases h
      rename_i b
      cases b <;> simp
  · intro s a s' es t h ht
    cases a <;> simp only [sharedMutex, SharedMutex.step, SharedMutex.runStep, SharedMutex.St.acquire] at h ht <;> (repeat' split at h) <;> simp at h <;>
      (obtain ⟨rfl, _⟩ := h; simp [sharedRank, SharedMutex.St.goto, SharedMutex.St.take, SharedMutex.wake_pc, Ne.symm ht])

/-! ## C113 for the objects -/

theorem won_spec {S A E M : Type} (o : Base S A E M) (t : Tid) (pre : List (Ev E M)) (h : accepts (spec o t) .idle pre = some .won) :
    ∃ p e, pre = p ++ [.obj e] ∧ o.res t e = some true := by
  induction pre using list_snoc with
  | nil => cases h
  | snoc p e _ =>
    rw [accepts_append] at h
    obtain ⟨q, -, h⟩ := Option.bind_eq_some_iff.1 h
    simp only [accepts] at h
    obtain ⟨q', h, hq⟩ := Option.bind_eq_some_iff.1 h
    cases hq
    cases q <;> cases e <;> simp only [spec] at h <;> (repeat' split at h) <;> simp_all
    exact ⟨_, _, ⟨rfl, rfl⟩, by assumption⟩

/-- C113. A timed call returns true in the same step in which its attempt has succeeded. -/
theorem C113_true_at_once {S A E M : Type} (o : Base S A E M) (ho : o.Lawful) (s0 : S) (n0 : Int) (as : List (Act A M)) (s : St S M)
    (pre post : List (Ev E M)) (t : Tid) (n : Int) (h : runs (step o) (St.init s0 n0) as = some (s, pre ++ .ret t true n :: post)) :
    ∃ p e, pre = p ++ [.obj e] ∧ o.res t e = some true := by
  obtain ⟨q, hq, _⟩ := runs_sim (fun (s : St S M) q => Rel (s.pc t) q)
    (fun s x s' es q hR hs => step_spec ho t s x s' es q hR hs) as _ _ _ .idle (by simp [St.init, Rel]) h
  rw [accepts_append] at hq
  obtain ⟨q1, h1, hq⟩ := Option.bind_eq_some_iff.1 hq
  simp only [accepts] at hq
  obtain ⟨q2, h2, -⟩ := Option.bind_eq_some_iff.1 hq
  have : q1 = .won := by cases q1 <;> simp [spec, other] at h2 ⊢
  exact won_spec o t pre (this ▸ h1)

/-- C113 for `co_timed_mutex`: however lock, unlock, try_lock and timed calls are mixed, the lock is correct, and who returns true from a
timed call is in the critical section. -/
theorem C113_timed_mutex (n0 : Int) (as : List (Act Mutex.Act Unit)) (s : St Mutex.St Unit) (es : List (Ev LockSpec.Ev Unit))
    (h : runs (step mutex) (St.init Mutex.St.init n0) as = some (s, es)) :
    LockSpec.Correct (objs es) ∧
    ∀ pre post t n, es = pre ++ .ret t true n :: post → LockSpec.inside t (objs pre) = true := by
  obtain ⟨bs, hb, _⟩ := C113_timed_is_locking mutex as _ _ _ h
  refine ⟨Mutex.C02_mutex_excludes bs _ _ hb, ?_⟩
  rintro pre post t n rfl
  obtain ⟨p, e, rfl, he⟩ := C113_true_at_once mutex mutex_lawful _ _ _ _ _ _ _ _ h
  rw [objs_append]
  simp only [objs]
  rw [LockSpec.inside_append_one]
  cases e <;> simp only [mutex] at he <;> (try split at he) <;> simp_all

/-- C113: a timed call does not overtake a coroutine that waits in the queue of a `co_timed_mutex`: acquisitions happen in the order of the
queue. -/
theorem C113_no_overtaking (n0 : Int) (as bs : List (Act Mutex.Act Unit)) (s s' : St Mutex.St Unit) (es fs : List (Ev LockSpec.Ev Unit))
    (h : runs (step mutex) (St.init Mutex.St.init n0) as = some (s, es)) (t : Tid) (ahead behind : List Tid)
    (hq : s.base.queue = ahead ++ t :: behind) (h' : runs (step mutex) s bs = some (s', fs)) :
    Mutex.acqs (objs fs) <+: Mutex.granted s.base ++ ahead ++ [t] ∨ Mutex.granted s.base ++ ahead ++ [t] <+: Mutex.acqs (objs fs) := by
  obtain ⟨cs, hc, _⟩ := C113_timed_is_locking mutex as _ _ _ h
  obtain ⟨ds, hd, _⟩ := C113_timed_is_locking mutex bs _ _ _ h'
  exact Mutex.C04_mutex_fifo s.base ⟨cs, _, hc⟩ t ahead behind hq ds s'.base _ hd

/-- C113 for `co_recursive_timed_mutex`. -/
theorem C113_recursive_timed_mutex (n0 : Int) (as : List (Act RecMutex.Act Unit)) (s : St RecMutex.St Unit)
    (es : List (Ev LockSpec.Ev Unit)) (h : runs (step recMutex) (St.init RecMutex.St.init n0) as = some (s, es)) :
    LockSpec.RCorrect (objs es) := by
  obtain ⟨bs, hb, _⟩ := C113_timed_is_locking recMutex as _ _ _ h
  exact RecMutex.C09_recursive_mutex_correct bs _ _ hb

/-- C113 for `co_shared_timed_mutex`, whose blocking operations are broken (C11): it is correct in programs whose writers only use
try_lock and the timed calls, as nobody then waits as a writer. -/
theorem C113_shared_timed_mutex_partial (n0 : Int) (as : List (Act SharedMutex.Act RwSpec.Mode)) (s : St SharedMutex.St RwSpec.Mode)
    (es : List (Ev RwSpec.Ev RwSpec.Mode)) (h : runs (step sharedMutex) (St.init SharedMutex.St.init n0) as = some (s, es))
    (hw : ∀ t, .obj (.callLock .unique t) ∉ as) : RwSpec.Correct (objs es) := by
  obtain ⟨bs, hb, hm⟩ := C113_timed_is_locking sharedMutex as _ _ _ h
  refine SharedMutex.C11_only_readers_block_partial bs _ _ hb (fun t ht => ?_)
  rcases hm _ ht with h1 | ⟨m, u, h1⟩
  · exact hw t h1
  · cases h1

/-- C113 for the semaphore: timed calls take permits as `try_acquire` does, and only when they return true. -/
theorem C113_semaphore (M d : Int) (hd : 0 ≤ d ∧ d ≤ M) (n0 : Int) (as : List (Act (Monitor.FAct Semaphore.Op) Unit))
    (s : St (Monitor.Full Int Semaphore.Cv Semaphore.Op Bool) Unit) (es : List (Ev (Monitor.Ev Semaphore.Op Bool Semaphore.Lin) Unit))
    (h : runs (step (semaphore M)) (St.init (Monitor.Full.init d) n0) as = some (s, es)) :
    Semaphore.Correct M d (objs es) ∧ s.base.low.sh = d + Semaphore.given (objs es) - Semaphore.taken (objs es) ∧
    ∀ pre post t n, es = pre ++ .ret t true n :: post → ∃ p, pre = p ++ [.obj (.ret t true)] := by
  obtain ⟨bs, hb, _⟩ := C113_timed_is_locking (semaphore M) as _ _ _ h
  have h1 := Monitor.C24_semaphore_real_mutex M d hd bs _ _ hb
  refine ⟨h1.1, h1.2.1.1, ?_⟩
  rintro pre post t n rfl
  obtain ⟨p, e, rfl, he⟩ := C113_true_at_once (semaphore M) (semaphore_lawful M) _ _ _ _ _ _ _ _ h
  refine ⟨p, ?_⟩
  cases e <;> simp only [semaphore] at he <;> (try split at he) <;> simp_all

/-- C113 for `co_timed_mutex`: once the deadline has passed the call returns before its coroutine has made five more steps. -/
theorem C113_timed_mutex_returns (n0 : Int) (as bs : List (Act Mutex.Act Unit)) (s s' : St Mutex.St Unit) (es fs : List (Ev LockSpec.Ev Unit))
    (t : Tid) (d : Int) (h : runs (step mutex) (St.init Mutex.St.init n0) as = some (s, es)) (hd : (s.pc t).deadline = some d)
    (hn : d ≤ s.now) (h' : runs (step mutex) s bs = some (s', fs)) (hc : 5 ≤ bs.countP (by_ mutex t)) : ∃ b n, .ret t b n ∈ fs :=
  C113_returns_after_deadline mutex mutex_lawful 2 mutexRank mutex_bounded _ _ as bs s s' es fs t d h hd hn h' hc

/-- The same for `co_recursive_timed_mutex`. -/
theorem C113_recursive_timed_mutex_returns (n0 : Int) (as bs : List (Act RecMutex.Act Unit)) (s s' : St RecMutex.St Unit)
    (es fs : List (Ev LockSpec.Ev Unit)) (t : Tid) (d : Int) (h : runs (step recMutex) (St.init RecMutex.St.init n0) as = some (s, es))
    (hd : (s.pc t).deadline = some d) (hn : d ≤ s.now) (h' : runs (step recMutex) s bs = some (s', fs))
    (hc : 5 ≤ bs.countP (by_ recMutex t)) : ∃ b n, .ret t b n ∈ fs :=
  C113_returns_after_deadline recMutex recMutex_lawful 2 recRank recMutex_bounded _ _ as bs s s' es fs t d h hd hn h' hc

/-- The same for `co_shared_timed_mutex`, in both modes. -/
theorem C113_shared_timed_mutex_returns (n0 : Int) (as bs : List (Act SharedMutex.Act RwSpec.Mode)) (s s' : St SharedMutex.St RwSpec.Mode)
    (es fs : List (Ev RwSpec.Ev RwSpec.Mode)) (t : Tid) (d : Int)
    (h : runs (step sharedMutex) (St.init SharedMutex.St.init n0) as = some (s, es))
    (hd : (s.pc t).deadline = some d) (hn : d ≤ s.now) (h' : runs (step sharedMutex) s bs = some (s', fs))
    (hc : 5 ≤ bs.countP (by_ sharedMutex t)) : ∃ b n, .ret t b n ∈ fs :=
  C113_returns_after_deadline sharedMutex sharedMutex_lawful 2 sharedRank sharedMutex_bounded _ _ as bs s s' es fs t d h hd hn h' hc

/-! ## Polling is not waiting -/

/-- 1 holds the mutex, nobody waits. (Concerns co_timed_addition.h:21-44, co_counting_semaphore.h:85-105.) -/
def held : Mutex.St := ⟨none, some 1, [], fun _ => false, fun _ => .out, upd (fun _ => false) 1 true⟩

/-- 1 holds the mutex, 2 is in a timed call and its attempt has failed. (Concerns co_timed_addition.h:21-44, co_counting_semaphore.h:85-105.) -/
def polling (d n : Int) : St Mutex.St Unit := ⟨held, n, upd (fun _ => .out) 2 (.yld () d)⟩

/-- 1 releases the mutex and takes it again; then 2 tries. (Concerns co_timed_addition.h:21-44, co_counting_semaphore.h:85-105.) -/
def round : List (Act Mutex.Act Unit) :=
  [.obj (.callUnlock 1)] ++ List.replicate 3 (.obj (.run 1 false)) ++ [.obj (.callLock 1)] ++ List.replicate 3 (.obj (.run 1 false)) ++
  [.resume 2, .clock 2] ++ List.replicate 3 (.obj (.run 2 false))

/-- What is seen of it. (Concerns co_timed_addition.h:21-44, co_counting_semaphore.h:85-105.) -/
def roundEv (n : Int) : List (Ev LockSpec.Ev Unit) :=
  [.obj (.unlockCall 1), .obj (.unlockRet 1 true), .obj (.acq 1), .again 2 n, .obj (.tryFail 2)]

theorem round_runs (d n : Int) (h : n < d) : runs (step mutex) (polling d n) round = some (polling d n, roundEv n) := by
  simp [polling, held, round, roundEv, runs, step, mutex, Mutex.step, Mutex.runStep, Mutex.St.goto, Mutex.St.acquire, St.after, h,
    List.replicate]

  refine ⟨⟨?_, ?_⟩, ?_⟩ <;> funext u <;> simp only [upd_apply] <;> grind

/-- `k` rounds. (Concerns co_timed_addition.h:21-44, co_counting_semaphore.h:85-105.) -/
def rounds : Nat → List (Act Mutex.Act Unit)
  | 0 => []
  | k + 1 => round ++ rounds k

theorem rounds_run (d n : Int) (h : n < d) (k : Nat) : ∃ es, runs (step mutex) (polling d n) (rounds k) = some (polling d n, es) ∧
    (objs es).countP (· == .unlockRet 1 true) = k := by
  induction k with
  | zero => exact ⟨[], rfl, rfl⟩
  | succ k ih =>
    obtain ⟨es, h1, h2⟩ := ih
    refine ⟨roundEv n ++ es, ?_, ?_⟩
    · exact runs_append (round_runs d n h) h1
    · rw [objs_append, List.countP_append, h2]
      have : (objs (roundEv n)).countP (· == .unlockRet 1 true) = 1 := by
        simp [roundEv, objs]
      omega

/-- C113, the last part is false of the code: a timed call polls, so it may miss the mutex however often it becomes free. For every number
`k` there is an execution in which the mutex is released `k` times during a timed call, and free each time, and the call returns false at
its deadline. -/
theorem C113_may_miss (k : Nat) (d : Int) (hd : 0 < d) : ∃ as s mid, runs (step mutex) (St.init Mutex.St.init 0) as =
      some (s, [.obj (.acq 1), .call () 2 d 0] ++ mid ++ [.ret 2 false d]) ∧
    (objs mid).countP (· == .unlockRet 1 true) = k := by
  let first : List (Act Mutex.Act Unit) := [.obj (.callLock 1)] ++ List.replicate 3 (.obj (.run 1 false)) ++ [.until_ () 2 d] ++
    List.replicate 3 (.obj (.run 2 false))
  have h1 : runs (step mutex) (St.init Mutex.St.init 0) first = some (polling d 0, [.obj (.acq 1), .call () 2 d 0, .obj (.tryFail 2)]) := by
    simp [first, polling, held, runs, step, St.start, St.init, Mutex.St.init, mutex, Mutex.step, Mutex.runStep, Mutex.St.goto,
      Mutex.St.acquire, St.after, List.replicate]
    refine ⟨?_, ?_⟩ <;> funext u <;> simp only [upd_apply] <;> grind
  obtain ⟨es, h2, h3⟩ := rounds_run d 0 hd k
  have h4 : ∃ s, runs (step mutex) (polling d 0) [.tick d.toNat, .resume 2, .clock 2] = some (s, [.ret 2 false d]) := by
    have : (d.toNat : Int) = d := by omega
    exact ⟨_, by simp [polling, runs, step, this]; rfl⟩
  obtain ⟨s, h4⟩ := h4
  refine ⟨first ++ (rounds k ++ [.tick d.toNat, .resume 2, .clock 2]), s, .obj (.tryFail 2) :: es, ?_, ?_⟩
  · have := runs_append h1 (runs_append h2 h4)
    simpa using this
  · simp [objs, h3]

/-! ## Cases -/

/-- 1 holds the mutex; the call of 2 with five units of time fails once and succeeds after 1 has released the mutex. (Concerns co_timed_addition.h:21-44, co_counting_semaphore.h:85-105.) -/
def demo : List (Act Mutex.Act Unit) :=
  [.obj (.callLock 1)] ++ List.replicate 3 (.obj (.run 1 false)) ++ [.tick 7, .for_ () 2 5] ++ List.replicate 3 (.obj (.run 2 false)) ++
  [.obj (.callUnlock 1), .tick 2] ++ List.replicate 3 (.obj (.run 1 false)) ++ [.resume 2, .clock 2] ++ List.replicate 3 (.obj (.run 2 false))

example : (runs (step mutex) (St.init Mutex.St.init 100) demo).map (fun p => (p.2, p.1.base.hold 2)) =
    some ([.obj (.acq 1), .callFor () 2 5 107, .obj (.tryFail 2), .obj (.unlockCall 1), .obj (.unlockRet 1 true), .again 2 109,
      .obj (.acq 2), .ret 2 true 109], true) := by decide

/-- `C113_outcome` on that trace. -/
example : results mutex 2 ([.obj (.tryFail 2), .obj (.unlockCall 1), .obj (.unlockRet 1 true), .again 2 109, .obj (.acq 2)] :
      List (Ev LockSpec.Ev Unit)) = List.replicate 1 false ++ [true] := by decide

/-- With a deadline in the past there is still one attempt; if it fails the call returns after four more steps. -/
example : (runs (step mutex) (St.init Mutex.St.init 100) ([.obj (.callLock 1)] ++ List.replicate 3 (.obj (.run 1 false)) ++
      [.until_ () 2 50] ++ List.replicate 3 (.obj (.run 2 false)) ++ [.resume 2, .clock 2])).map (fun p => p.2) =
    some [.obj (.acq 1), .call () 2 50 100, .obj (.tryFail 2), .ret 2 false 100] := by decide

/-- The holder of a recursive mutex gets it again at once. -/
example : (runs (step recMutex) (St.init RecMutex.St.init 0) ([.obj (.callLock 1)] ++ List.replicate 3 (.obj (.run 1 false)) ++
      [.until_ () 1 50] ++ List.replicate 3 (.obj (.run 1 false)))).map (fun p => p.2) =
    some [.obj (.acq 1), .call () 1 50 0, .obj (.acq 1), .ret 1 true 0] := by decide

/-- A writer that polls until the reader has left. -/
example : (runs (step sharedMutex) (St.init SharedMutex.St.init 0) ([.obj (.callLock .shared 1)] ++ List.replicate 3 (.obj (.run 1 false)) ++
      [.until_ .unique 2 50] ++ List.replicate 3 (.obj (.run 2 false)) ++ [.obj (.callUnlock .shared 1)] ++
      List.replicate 3 (.obj (.run 1 false)) ++ [.resume 2, .clock 2] ++ List.replicate 3 (.obj (.run 2 false)))).map (fun p => p.2) =
    some [.obj (.acq .shared 1), .call .unique 2 50 0, .obj (.tryFail .unique 2), .obj (.unlockCall .shared 1),
      .obj (.unlockRet .shared 1 true), .again 2 0, .obj (.acq .unique 2), .ret 2 true 0] := by decide

/-- A semaphore without permits; then one is released. -/
example : (runs (step (semaphore 1)) (St.init (Monitor.Full.init 0) 0) ([.until_ () 2 50] ++ List.replicate 10 (.obj (.run 2 true)) ++
      [.obj (.call 1 (.release 0))] ++ List.replicate 13 (.obj (.run 1 true)) ++ [.resume 2, .clock 2] ++
      List.replicate 13 (.obj (.run 2 true)))).map (fun p => p.2) =
    some [.call () 2 50 0, .obj (.call 2 .tryAcquire), .obj (.lin (.failed 2)), .obj (.ret 2 false), .obj (.call 1 (.release 0)),
      .obj (.lin (.gave 1)), .obj (.ret 1 true), .again 2 0, .obj (.call 2 .tryAcquire), .obj (.lin (.took 2)), .obj (.ret 2 true),
      .ret 2 true 0] := by decide

end Verif.TimedLock
