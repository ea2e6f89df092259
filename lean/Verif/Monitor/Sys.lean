import Verif.Monitor.Full

/-!
# Programs that use several monitor objects

C22 is about one object and clients that call it in any order. Here any number of coroutines run given programs that call any number
of objects (for example the stages of a pipeline and its channels), and the whole program with every step of every mutex and condition
variable is compared with the program whose critical sections are single steps.
-/

namespace Verif.Monitor
section
set_option linter.unusedSectionVars false
variable {σ C K V E W L : Type} [DecidableEq C] [DecidableEq W]

/-- What a coroutine does next: call object `j` at `k` and go on according to the result; a step of its own; nothing (it has ended, or it
joins a coroutine that has not ended). (Concerns co_condition_variable.h:69-88, co_mutex.cpp:18-108.) -/
inductive Next (L K V : Type)
  | call (j : Nat) (k : K) (h : V → L)
  | go (l : L)
  | stop

/-- A program: the next step of each coroutine `w : W`. It depends on the local states of the others only so that `join` can be
expressed. `tid`: the numbers by which the objects know the coroutines (the code uses the `co_ctx` pointers, for example
co_condition_variable.h:60), all different. -/
structure Prog (W L K V : Type) where
  next : W → (W → L) → Next L K V
  tid : W → Tid
  inj : ∀ a b, tid a = tid b → a = b

/-- A machine for objects: a call begins; a coroutine inside a call makes a step. (Concerns co_condition_variable.h:69-88, co_mutex.cpp:18-108.) -/
structure Mach (M K V E : Type) where
  call : Nat → M → Tid → K → Option (M × List (Ev K V E))
  run : Nat → M → Tid → Bool → Option (M × List (Ev K V E))

/-- The machine with every step of mutexes and condition variables; object `j` is `o j`. (Concerns co_condition_variable.h:69-88, co_mutex.cpp:18-108.) -/
def fullM (o : Nat → Obj σ C K V E) : Mach (Full σ C K V) K V E where
  call j f t k := f.step (o j) (.call t k)
  run j f t b := f.step (o j) (.run t b)

/-- The machine with atomic critical sections. (Concerns co_condition_variable.h:69-88, co_mutex.cpp:18-108.) -/
def absM (o : Nat → Obj σ C K V E) : Mach (Abs σ C K V) K V E where
  call j a t k := a.step (o j) (.call t k)
  run j a t _ := match a.th t with
    | .leaving _ => a.step (o j) (.leave t)
    | _ => a.step (o j) (.run t)

/-- State of a program: local states; for a coroutine inside a call the object and what to do with the result; the objects. (Concerns co_condition_variable.h:69-88, co_mutex.cpp:18-108.) -/
structure Sys (W L V M : Type) where
  ps : W → L
  inside : W → Option (Nat × (V → L))
  obs : Nat → M

/-- The result if the call has returned. (Concerns co_condition_variable.h:69-88, co_mutex.cpp:18-108.) -/
def retOf : List (Ev K V E) → Option V
  | [.ret _ v] => some v
  | _ => none

/-- A step of coroutine `w`; `b`: what the clock says, see `FAct`. (Concerns co_condition_variable.h:69-88, co_mutex.cpp:18-108.) -/
def Sys.step {M : Type} (m : Mach M K V E) (p : Prog W L K V) (s : Sys W L V M) :
    W × Bool → Option (Sys W L V M × List (Nat × Ev K V E))
  | (w, b) => match s.inside w with
    | none => match p.next w s.ps with
      | .stop => none
      | .go l => some ({ s with ps := setC s.ps w l }, [])
      | .call j k h => (m.call j (s.obs j) (p.tid w) k).map fun r =>
          ({ s with inside := setC s.inside w (some (j, h)), obs := upd s.obs j r.1 }, r.2.map (j, ·))
    | some (j, h) => (m.run j (s.obs j) (p.tid w) b).map fun r =>
        match retOf r.2 with
        | none => ({ s with obs := upd s.obs j r.1 }, r.2.map (j, ·))
        | some v => ({ ps := setC s.ps w (h v), inside := setC s.inside w none, obs := upd s.obs j r.1 }, r.2.map (j, ·))

/-- Start: local states `l0`, data `s0 j`. (Concerns co_condition_variable.h:69-88, co_mutex.cpp:18-108.) -/
def Sys.initF (l0 : W → L) (s0 : Nat → σ) : Sys W L V (Full σ C K V) := ⟨l0, fun _ => none, fun j => Full.init (s0 j)⟩
/-- The same for the atomic machine. (Concerns co_condition_variable.h:69-88, co_mutex.cpp:18-108.) -/
def Sys.initA (l0 : W → L) (s0 : Nat → σ) : Sys W L V (Abs σ C K V) := ⟨l0, fun _ => none, fun j => Abs.init (s0 j)⟩

/-- The corresponding state of the atomic machine. (Concerns co_condition_variable.h:69-88, co_mutex.cpp:18-108.) -/
def Sys.abs (s : Sys W L V (Full σ C K V)) : Sys W L V (Abs σ C K V) := ⟨s.ps, s.inside, fun j => (s.obs j).low.abs⟩

/-! ## Refinement -/

theorem full_abs_step {o : Obj σ C K V E} {f f' : Full σ C K V} {a : FAct K} {es : List (Ev K V E)} (h : f.Inv)
    (hs : f.step o a = some (f', es)) :
    f'.Inv ∧ ((es = [] ∧ f'.low.abs = f.low.abs) ∨ ∃ x, f.low.abs.step o x = some (f'.low.abs, es) ∧
      ∀ t b, a = .run t b → x = .run t ∨ x = .leave t) := by
  obtain ⟨h1, h2⟩ := Full.sim_step h hs
  refine ⟨h1, ?_⟩
  rcases h2 with ⟨h2, h3⟩ | ⟨x, h2, h3⟩
  · exact .inl ⟨h2, by rw [h3]⟩
  · rcases refine_step _ _ _ _ h.low h2 with ⟨q1, q2, _⟩ | ⟨y, q1, q2⟩
    · exact .inl ⟨q1, q2⟩
    · exact .inr ⟨y, q2, fun t b ha => q1 t (h3 t b ha)⟩

theorem full_call {o : Obj σ C K V E} {f f' : Full σ C K V} {t : Tid} {k : K} {es : List (Ev K V E)} (h : f.Inv)
    (hs : f.step o (.call t k) = some (f', es)) :
    f.low.abs.step o (.call t k) = some (f'.low.abs, es) := by
  have hp : f.low.pc t = .idle := by
    simp only [Full.step] at hs
    split at hs
    · assumption
    · cases hs
  have hth : f.low.abs.th t = .idle := by simp [Low.abs, thP, hp]
  simp only [Full.step, hp, Option.some.injEq, Prod.mk.injEq] at hs
  obtain ⟨rfl, rfl⟩ := hs
  have hlow : f.low.step o (.call t k) = some (f.low.goto t (.acq k), [.call t k]) := by simp [Low.step, hp]
  rcases refine_step _ _ _ _ h.low hlow with ⟨q1, _⟩ | ⟨y, _, q2⟩
  · cases q1
  · have : y = .call t k := by
      cases y with
      | call u j =>
        simp only [Abs.step] at q2
        split at q2 <;> simp at q2
        rw [q2.2.1, q2.2.2]
      | run u =>
        simp only [Abs.step] at q2
        split at q2 <;> simp at q2
      | leave u =>
        simp only [Abs.step] at q2
        split at q2 <;> simp at q2
    rw [this] at q2; exact q2

theorem upd_upd_abs (g : Nat → Full σ C K V) (j : Nat) (f : Full σ C K V) :
    (fun i => ((upd g j f) i).low.abs) = upd (fun i => (g i).low.abs) j f.low.abs := by
  funext i; by_cases h : i = j <;> simp [h]

/-- Every step of the full program is no step of the atomic program or one. -/
theorem Sys.sim_step {o : Nat → Obj σ C K V E} {p : Prog W L K V} {s s' : Sys W L V (Full σ C K V)} {a : W × Bool}
    {es : List (Nat × Ev K V E)} (h : ∀ j, (s.obs j).Inv) (hs : s.step (fullM o) p a = some (s', es)) :
    (∀ j, (s'.obs j).Inv) ∧ ((es = [] ∧ s'.abs = s.abs) ∨ s.abs.step (absM o) p a = some (s'.abs, es)) := by
  obtain ⟨w, b⟩ := a
  have hupd : ∀ (j : Nat) (f : Full σ C K V), f.Inv → ∀ i, ((upd s.obs j f) i).Inv := by
    intro j f hf i
    by_cases hi : i = j
    · rw [hi]; simpa using hf
    · simpa [hi] using h i
  simp only [Sys.step] at hs
  cases hin : s.inside w with
  | none =>
    rw [hin] at hs
    simp only at hs
    cases hn : p.next w s.ps with
    | stop => rw [hn] at hs; cases hs
    | go l =>
      rw [hn] at hs; cases hs
      refine ⟨h, .inr ?_⟩
      simp [Sys.step, Sys.abs, hin, hn]
    | call j k g =>
      rw [hn] at hs
      simp only [Option.map_eq_some_iff] at hs
      obtain ⟨⟨f, es'⟩, hf, hs⟩ := hs
      cases hs
      have hf : (s.obs j).step (o j) (.call (p.tid w) k) = some (f, es') := hf
      refine ⟨hupd j f (full_abs_step (h j) hf).1, .inr ?_⟩
      have := full_call (h j) hf
      simp only [Sys.step, Sys.abs, hin, hn, absM, this, Option.map_some, upd_upd_abs]
  | some q =>
    obtain ⟨j, g⟩ := q
    rw [hin] at hs
    simp only [Option.map_eq_some_iff] at hs
    obtain ⟨⟨f, es'⟩, hf, hs⟩ := hs
    have hf : (s.obs j).step (o j) (.run (p.tid w) b) = some (f, es') := hf
    obtain ⟨hI, hab⟩ := full_abs_step (h j) hf
    rcases hab with ⟨rfl, hab⟩ | ⟨x, hx, hxt⟩
    · simp only [retOf, List.map_nil] at hs
      cases hs
      refine ⟨hupd j f hI, .inl ⟨rfl, ?_⟩⟩
      simp only [Sys.abs, upd_upd_abs, hab, Sys.mk.injEq, true_and]
      funext i; by_cases hi : i = j <;> simp [hi]
    · have hrun : (absM o).run j (s.obs j).low.abs (p.tid w) b = some (f.low.abs, es') := by
        simp only [absM]
        rcases hxt _ _ rfl with rfl | rfl
        · split
          · rename_i v hv; simp [Abs.step, hv] at hx
          · exact hx
        · split
          · exact hx
          · rename_i hv
            exfalso
            simp only [Abs.step] at hx
            cases hx
      have hobs : s'.obs = upd s.obs j f := by
        cases hr : retOf es' with
        | none => simp only [hr] at hs; cases hs; rfl
        | some v => simp only [hr] at hs; cases hs; rfl
      refine ⟨by rw [hobs]; exact hupd j f hI, .inr ?_⟩
      have hh : s.abs.step (absM o) p (w, b) = some (match retOf es' with
          | none => ({ s.abs with obs := upd s.abs.obs j f.low.abs }, es'.map (j, ·))
          | some v => ({ ps := setC s.ps w (g v), inside := setC s.inside w none, obs := upd s.abs.obs j f.low.abs },
              es'.map (j, ·))) := by
        simp only [Sys.step, Sys.abs, hin]
        simp only [hrun, Option.map_some]
      rw [hh]
      cases hr : retOf es' with
      | none =>
        simp only [hr] at hs; cases hs
        simp only [Sys.abs, upd_upd_abs]
      | some v =>
        simp only [hr] at hs; cases hs
        simp only [Sys.abs, upd_upd_abs]

/-- Proof device: executions from any state whose objects satisfy their invariants. -/
theorem Sys.sim {o : Nat → Obj σ C K V E} {p : Prog W L K V} : ∀ (as : List (W × Bool)) (s s' : Sys W L V (Full σ C K V))
    (es : List (Nat × Ev K V E)), (∀ j, (s.obs j).Inv) → runs (Sys.step (fullM o) p) s as = some (s', es) →
    (∀ j, (s'.obs j).Inv) ∧ ∃ bs, runs (Sys.step (absM o) p) s.abs bs = some (s'.abs, es) := by
  intro as
  induction as with
  | nil =>
    intro s s' es hI h
    simp only [runs, Option.some.injEq, Prod.mk.injEq] at h
    obtain ⟨rfl, rfl⟩ := h
    exact ⟨hI, [], rfl⟩
  | cons a as ih =>
    intro s s' es hI h
    obtain ⟨s1, e1, e2, h1, h2, rfl⟩ := runs_cons h
    obtain ⟨hI1, hs⟩ := Sys.sim_step hI h1
    obtain ⟨hI', bs, hb⟩ := ih s1 s' e2 hI1 h2
    refine ⟨hI', ?_⟩
    rcases hs with ⟨rfl, he⟩ | hx
    · exact ⟨bs, by rw [← he]; simpa using hb⟩
    · exact ⟨a :: bs, by simp only [runs, hx, hb]⟩

theorem Sys.abs_init (l0 : W → L) (s0 : Nat → σ) : (Sys.initF l0 s0 : Sys W L V (Full σ C K V)).abs = Sys.initA l0 s0 := rfl

/-- **C22 for whole programs**: whatever a program does with any number of monitor objects, with every step of every mutex and every
condition variable, it can do when critical sections are single steps: the same calls, events and returns of all objects in the same
order, the same data, and every coroutine is at the same point of its program. -/
theorem C22_programs (o : Nat → Obj σ C K V E) (p : Prog W L K V) (l0 : W → L) (s0 : Nat → σ) (as : List (W × Bool))
    (s : Sys W L V (Full σ C K V)) (es : List (Nat × Ev K V E))
    (h : runs (Sys.step (fullM o) p) (Sys.initF l0 s0) as = some (s, es)) :
    ∃ bs, runs (Sys.step (absM o) p) (Sys.initA l0 s0) bs = some (s.abs, es) :=
  (Sys.sim as _ s es (fun j => Full.inv_init (s0 j)) h).2

/-! ## Each object by itself -/

/-- The events of object `j`. (Concerns co_condition_variable.h:69-88, co_mutex.cpp:18-108.) -/
def evs (j : Nat) : List (Nat × Ev K V E) → List (Ev K V E)
  | [] => []
  | (i, e) :: es => if i = j then e :: evs j es else evs j es

theorem evs_append (j : Nat) (es fs : List (Nat × Ev K V E)) : evs j (es ++ fs) = evs j es ++ evs j fs := by
  induction es with
  | nil => rfl
  | cons e es ih => simp only [List.cons_append, evs, ih]; split <;> rfl

theorem evs_map (j i : Nat) (es : List (Ev K V E)) : evs j (es.map (i, ·)) = if i = j then es else [] := by
  induction es with
  | nil => simp [evs]
  | cons e es ih => simp only [List.map_cons, evs, ih]; split <;> rfl

theorem Sys.obj_step {o : Nat → Obj σ C K V E} {p : Prog W L K V} {s s' : Sys W L V (Full σ C K V)} {a : W × Bool}
    {es : List (Nat × Ev K V E)} (hs : s.step (fullM o) p a = some (s', es)) (i : Nat) :
    (evs i es = [] ∧ s'.obs i = s.obs i) ∨ ∃ x, (s.obs i).step (o i) x = some (s'.obs i, evs i es) := by
  obtain ⟨w, b⟩ := a
  simp only [Sys.step] at hs
  have key : ∀ j f (es' : List (Ev K V E)) x, (s.obs j).step (o j) x = some (f, es') → s'.obs = upd s.obs j f → es = es'.map (j, ·) →
      (evs i es = [] ∧ s'.obs i = s.obs i) ∨ ∃ x, (s.obs i).step (o i) x = some (s'.obs i, evs i es) := by
    intro j f es' x hx ho he
    rw [ho, he, evs_map]
    by_cases hi : i = j
    · subst hi; right; exact ⟨x, by simpa using hx⟩
    · left; simp [hi, Ne.symm hi]
  cases hin : s.inside w with
  | none =>
    rw [hin] at hs
    simp only at hs
    cases hn : p.next w s.ps with
    | stop => rw [hn] at hs; cases hs
    | go l => rw [hn] at hs; cases hs; exact .inl ⟨rfl, rfl⟩
    | call j k g =>
      rw [hn] at hs
      simp only [Option.map_eq_some_iff] at hs
      obtain ⟨⟨f, es'⟩, hf, hs⟩ := hs
      cases hs
      exact key j f es' (.call (p.tid w) k) hf rfl rfl
  | some q =>
    obtain ⟨j, g⟩ := q
    rw [hin] at hs
    simp only [Option.map_eq_some_iff] at hs
    obtain ⟨⟨f, es'⟩, hf, hs⟩ := hs
    cases hr : retOf es' with
    | none => simp only [hr] at hs; cases hs; exact key j f es' (.run (p.tid w) b) hf rfl rfl
    | some v => simp only [hr] at hs; cases hs; exact key j f es' (.run (p.tid w) b) hf rfl rfl

/-- What one object sees of the execution of a program is an execution of this object. -/
theorem Sys.obj_runs {o : Nat → Obj σ C K V E} {p : Prog W L K V} (i : Nat) : ∀ (as : List (W × Bool))
    (s s' : Sys W L V (Full σ C K V)) (es : List (Nat × Ev K V E)), runs (Sys.step (fullM o) p) s as = some (s', es) →
    ∃ bs, runs (Full.step (o i)) (s.obs i) bs = some (s'.obs i, evs i es) := by
  intro as
  induction as with
  | nil =>
    intro s s' es h
    simp only [runs, Option.some.injEq, Prod.mk.injEq] at h
    obtain ⟨rfl, rfl⟩ := h
    exact ⟨[], rfl⟩
  | cons a as ih =>
    intro s s' es h
    obtain ⟨s1, e1, e2, h1, h2, rfl⟩ := runs_cons h
    obtain ⟨bs, hb⟩ := ih s1 s' e2 h2
    rw [evs_append]
    rcases Sys.obj_step h1 i with ⟨h3, h4⟩ | ⟨x, hx⟩
    · exact ⟨bs, by rw [h3, ← h4]; simpa using hb⟩
    · exact ⟨x :: bs, by simp only [runs, hx, hb]⟩

/-! ## Who is inside -/

/-- Proof device: the objects agree with the program about who is inside. (Concerns co_condition_variable.h:69-88, co_mutex.cpp:18-108.) -/
def Sys.Own (p : Prog W L K V) (s : Sys W L V (Abs σ C K V)) : Prop :=
  ∀ j t, (s.obs j).th t ≠ .idle ↔ ∃ w h, p.tid w = t ∧ s.inside w = some (j, h)

theorem settle_idle_iff (wq : C → List Tid) (u : Tid) (x : Th C K V) : settle wq u x = .idle ↔ x = .idle := by
  cases x <;> simp [settle]
  split <;> simp

theorem retOf_lin (l : List E) : retOf (l.map .lin : List (Ev K V E)) = none := by
  cases l with
  | nil => rfl
  | cons e l => cases l <;> rfl

/-- A step inside a call: a critical section or the return. -/
theorem absM_run {o : Nat → Obj σ C K V E} {j : Nat} {a a' : Abs σ C K V} {t : Tid} {b : Bool} {es : List (Ev K V E)}
    (h : (absM o).run j a t b = some (a', es)) :
    (∃ k, a.th t = .ready k ∧ a.step (o j) (.run t) = some (a', es) ∧ retOf es = none) ∨
    (∃ v, a.th t = .leaving v ∧ a' = { a with th := upd a.th t .idle } ∧ es = [.ret t v]) := by
  simp only [absM] at h
  split at h
  · rename_i v hv
    simp only [Abs.step, hv, Option.some.injEq, Prod.mk.injEq] at h
    exact .inr ⟨v, hv, h.1.symm, h.2.symm⟩
  · left
    have h0 := h
    simp only [Abs.step] at h
    split at h
    · rename_i k hk
      simp only [Option.some.injEq, Prod.mk.injEq] at h
      exact ⟨k, hk, h0, by rw [← h.2]; exact retOf_lin _⟩
    · cases h

theorem Sys.own_init (p : Prog W L K V) (l0 : W → L) (s0 : Nat → σ) :
    Sys.Own p (Sys.initA l0 s0 : Sys W L V (Abs σ C K V)) := by
  intro j t; simp [Sys.initA, Abs.init]

theorem Sys.own_step {o : Nat → Obj σ C K V E} {p : Prog W L K V} {s s' : Sys W L V (Abs σ C K V)} {a : W × Bool}
    {es : List (Nat × Ev K V E)} (h : s.Own p) (hs : s.step (absM o) p a = some (s', es)) : s'.Own p := by
  obtain ⟨w, b⟩ := a
  simp only [Sys.step] at hs
  cases hin : s.inside w with
  | none =>
    rw [hin] at hs
    simp only at hs
    cases hn : p.next w s.ps with
    | stop => rw [hn] at hs; cases hs
    | go l => rw [hn] at hs; cases hs; exact h
    | call j k g =>
      rw [hn] at hs
      simp only [Option.map_eq_some_iff] at hs
      obtain ⟨⟨f, es'⟩, hf, hs⟩ := hs
      cases hs
      simp only [absM, Abs.step] at hf
      split at hf <;> cases hf
      rename_i hidle
      intro i t
      by_cases ht : t = p.tid w
      · subst ht
        by_cases hi : i = j
        · subst hi
          simp only [upd_same, ne_eq, reduceCtorEq, not_false_eq_true, true_iff]
          exact ⟨w, g, rfl, by simp⟩
        · simp only [upd_other _ _ hi]
          rw [h i (p.tid w)]
          constructor
          · rintro ⟨u, g', h1, h2⟩
            have := p.inj _ _ h1; subst this; rw [hin] at h2; cases h2
          · rintro ⟨u, g', h1, h2⟩
            have := p.inj _ _ h1; subst this; simp at h2; exact absurd h2.1.symm hi
      · have hth : ((upd s.obs j { s.obs j with th := upd (s.obs j).th (p.tid w) (.ready k) }) i).th t = (s.obs i).th t := by
          by_cases hi : i = j
          · subst hi; simp [ht]
          · simp [hi]
        rw [hth, h i t]
        constructor
        · rintro ⟨u, g', h1, h2⟩
          exact ⟨u, g', h1, (setC_other _ _ (by rintro rfl; exact ht h1.symm)).trans h2⟩
        · rintro ⟨u, g', h1, h2⟩
          exact ⟨u, g', h1, (setC_other _ _ (by rintro rfl; exact ht h1.symm)).symm.trans h2⟩
  | some q =>
    obtain ⟨j, g⟩ := q
    rw [hin] at hs
    simp only [Option.map_eq_some_iff] at hs
    obtain ⟨⟨f, es'⟩, hf, hs⟩ := hs
    rcases absM_run hf with ⟨k, hk, hst, hr⟩ | ⟨v, hv, rfl, rfl⟩
    · simp only [hr] at hs
      cases hs
      simp only [Abs.step, hk, Option.some.injEq, Prod.mk.injEq] at hst
      obtain ⟨rfl, rfl⟩ := hst
      intro i t
      rw [← h i t]
      by_cases hi : i = j
      · subst hi
        by_cases ht : t = p.tid w
        · subst ht
          simp only [upd_same, hk]
          cases hfin : ((o i).body (p.tid w) k (s.obs i).sh).fin <;> simp [Fin.th]
        · simp only [upd_same, upd_other _ _ ht, ne_eq, settle_idle_iff]
      · simp [hi]
    · simp only [retOf] at hs
      cases hs
      intro i t
      by_cases ht : t = p.tid w
      · subst ht
        by_cases hi : i = j
        · subst hi
          simp only [upd_same, ne_eq, not_true_eq_false, false_iff]
          rintro ⟨u, g', h1, h2⟩
          have := p.inj _ _ h1; subst this; simp at h2
        · simp only [upd_other _ _ hi]
          rw [h i (p.tid w)]
          constructor
          · rintro ⟨u, g', h1, h2⟩
            have := p.inj _ _ h1; subst this; rw [hin] at h2; simp at h2; exact absurd h2.1.symm hi
          · rintro ⟨u, g', h1, h2⟩
            have := p.inj _ _ h1; subst this; simp at h2
      · have hth : ((upd s.obs j { s.obs j with th := upd (s.obs j).th (p.tid w) .idle }) i).th t = (s.obs i).th t := by
          by_cases hi : i = j
          · subst hi; simp [ht]
          · simp [hi]
        rw [hth, h i t]
        constructor
        · rintro ⟨u, g', h1, h2⟩
          exact ⟨u, g', h1, (setC_other _ _ (by rintro rfl; exact ht h1.symm)).trans h2⟩
        · rintro ⟨u, g', h1, h2⟩
          exact ⟨u, g', h1, (setC_other _ _ (by rintro rfl; exact ht h1.symm)).symm.trans h2⟩

theorem Sys.own_reach {o : Nat → Obj σ C K V E} {p : Prog W L K V} {l0 : W → L} {s0 : Nat → σ} {as : List (W × Bool)}
    {s : Sys W L V (Full σ C K V)} {es : List (Nat × Ev K V E)}
    (h : runs (Sys.step (fullM o) p) (Sys.initF l0 s0) as = some (s, es)) : s.abs.Own p := by
  obtain ⟨bs, hb⟩ := C22_programs o p l0 s0 as s es h
  exact runs_inv (Sys.Own p) (fun _ _ _ _ hI hs => Sys.own_step hI hs) bs _ _ _ (Sys.own_init p l0 s0) hb

/-! ## Progress -/

theorem full_idle_run {o : Obj σ C K V E} {f : Full σ C K V} (hI : f.Inv) {t : Tid} (hi : f.low.pc t = .idle) (b : Bool) :
    f.step o (.run t b) = none := by
  simp only [Full.step, Full.runStep]
  split
  · simp [hi, Pc.unlocking, Low.runStep]
  · rename_i ho
    rcases hI.link t with ⟨h1, _⟩ | ⟨_, k, h2⟩ | ⟨_, h2⟩
    · exact absurd h1 ho
    · rw [hi] at h2; cases h2
    · rw [hi] at h2; cases h2

theorem abs_idle (s : Low σ C K V) (t : Tid) : s.abs.th t = .idle ↔ s.pc t = .idle := by
  simp only [Low.abs]
  cases hp : s.pc t with
  | sig l f => cases f <;> simp [thP, Fin.th]
  | sGo g l f => cases f <;> simp [thP, Fin.th]
  | sWake c u l f => cases f <;> simp [thP, Fin.th]
  | sAll c u l f => cases f <;> simp [thP, Fin.th]
  | sRel c l f => cases f <;> simp [thP, Fin.th]
  | pSleep c k => simp only [thP]; split <;> simp
  | pRel c k => simp only [thP]; split <;> simp
  | pYield c k => simp only [thP]; split <;> simp
  | _ => simp [thP]

/-- **C22 for whole programs, progress**: when no coroutine of the program can make a step, every coroutine has come to a point where its
program stops, or waits in the queue of a condition variable; nobody waits for a mutex, nobody is on the way. -/
theorem C22_programs_stuck (o : Nat → Obj σ C K V E) (p : Prog W L K V) (l0 : W → L) (s0 : Nat → σ) (as : List (W × Bool))
    (s : Sys W L V (Full σ C K V)) (es : List (Nat × Ev K V E))
    (h : runs (Sys.step (fullM o) p) (Sys.initF l0 s0) as = some (s, es)) (hst : ∀ a, s.step (fullM o) p a = none) :
    (∀ j t b, (s.obs j).step (o j) (.run t b) = none) ∧ (∀ j t, (s.obs j).mx.pc t = .out) ∧
    ∀ w, match s.inside w with
      | none => p.next w s.ps = .stop
      | some (j, _) => ∃ c k, (s.obs j).low.pc (p.tid w) = .pYield c k ∧ (s.obs j).low.abs.th (p.tid w) = .parked c k ∧
          p.tid w ∈ (s.obs j).low.wl c := by
  have hI := (Sys.sim as _ s es (fun j => Full.inv_init (s0 j)) h).1
  have hO := Sys.own_reach h
  have hrun : ∀ j t b, (s.obs j).step (o j) (.run t b) = none := by
    intro j t b
    by_cases hi : (s.obs j).low.pc t = .idle
    · exact full_idle_run (hI j) hi b
    · have : s.abs.obs j = (s.obs j).low.abs := rfl
      obtain ⟨w, g, h1, h2⟩ := (hO j t).1 (by rw [this, ne_eq, abs_idle]; exact hi)
      have h2 : s.inside w = some (j, g) := h2
      have h3 := hst (w, b)
      simp only [Sys.step, h2, Option.map_eq_none_iff] at h3
      rw [← h1]; exact h3
  have hq : ∀ j, _ := fun j => C22_real_mutex_stuck (o j) (s0 j) (s.obs j)
    (by obtain ⟨bs, hb⟩ := Sys.obj_runs j as _ s es h; exact ⟨bs, _, hb⟩) (hrun j)
  refine ⟨hrun, fun j => (hq j).1, fun w => ?_⟩
  have h3 := hst (w, true)
  simp only [Sys.step] at h3
  split
  · rename_i hin
    rw [hin] at h3
    simp only at h3
    cases hn : p.next w s.ps with
    | stop => rfl
    | go l => rw [hn] at h3; cases h3
    | call j k g =>
      exfalso
      rw [hn] at h3
      simp only [Option.map_eq_none_iff] at h3
      have hidle : (s.obs j).low.pc (p.tid w) = .idle := by
        apply Classical.byContradiction
        intro hi
        have : s.abs.obs j = (s.obs j).low.abs := rfl
        obtain ⟨u, g', h1, h2⟩ := (hO j (p.tid w)).1 (by rw [this, ne_eq, abs_idle]; exact hi)
        have := p.inj _ _ h1
        subst this
        have h2 : s.inside u = some (j, g') := h2
        rw [hin] at h2; cases h2
      simp [fullM, Full.step, hidle] at h3
  · rename_i j g hin
    have hne : (s.obs j).low.pc (p.tid w) ≠ .idle := by
      have := (hO j (p.tid w)).2 ⟨w, g, rfl, hin⟩
      exact fun hi => this ((abs_idle _ _).2 hi)
    rcases (hq j).2.2 (p.tid w) with hh | ⟨c, k, h1, h2, h4⟩
    · exact absurd hh hne
    · obtain ⟨bs, hb⟩ := Sys.obj_runs j as _ s es h
      obtain ⟨_, cs, hc⟩ := Full.sim_init hb
      rcases C22_stuck_only_parked (o j) (s0 j) (s.obs j).low ⟨cs, _, hc⟩ (hq j).2.1 (p.tid w) with ⟨hh, _⟩ | ⟨c', k', q1, _, q3, q4, _⟩
      · exact absurd hh hne
      · exact ⟨c', k', q1, q4, q3⟩

/-! ## Termination -/

theorem low_changes {o : Obj σ C K V E} {s s' : Low σ C K V} {t : Tid} {es : List (Ev K V E)}
    (hs : s.step o (.run t) = some (s', es)) : s'.pc t ≠ s.pc t := by
  rcases weight_step s t s' es hs with h | h
  · simp only [Low.step, Low.runStep] at hs
    cases hp : s.pc t with
    | exec k => simp only [hp] at hs; cases hs; simp
    | sig l f =>
      cases l with
      | nil =>
        cases f with
        | ret v => simp only [hp] at hs; cases hs; simp
        | _ => simp [hp, Pc.visible] at h
      | cons g l => simp [hp, Pc.visible] at h
    | _ => simp [hp, Pc.visible] at h
  · intro he
    have hpc := run_pc_other hs
    cases hf : (s.pc t).hasM with
    | false => rw [run_wl_of_free hs hf, he] at h; omega
    | true =>
      -- the program counter changes in each of these steps
      simp only [Low.step, Low.runStep, Low.goto] at hs
      cases hp : s.pc t <;> rw [hp] at he <;> simp only [hp] at hs
      case sig l f =>
        rcases l with _ | ⟨g, l⟩
        rcases f with v | v | ⟨c, k⟩
        all_goals simp only at hs
        all_goals (try split at hs) <;> cases hs
        all_goals simp at he
      case sGo g l f =>
        rcases g with c | c <;> simp only at hs
        all_goals (try split at hs) <;> cases hs
        all_goals simp at he
      case sAll c ws l f =>
        cases ws <;> cases hs
        all_goals simp at he
      all_goals (try split at hs) <;> cases hs
      all_goals simp at he

theorem full_quiet {o : Obj σ C K V E} {f f' : Full σ C K V} {t : Tid} {es : List (Ev K V E)} (hI : f.Inv)
    (hs : f.step o (.run t true) = some (f', es)) :
    f.low.step o (.run t) = some (f'.low, es) ∨ (es = [] ∧ f'.low = f.low ∧ f.low.pc t ≠ .idle ∧
      (∀ u, u ≠ t → frank f'.mx u = frank f.mx u) ∧ frank f'.mx t < frank f.mx t) := by
  obtain ⟨hI', hsim⟩ := Full.sim_step hI hs
  rcases hsim with ⟨hes, heq⟩ | ⟨x, h1, h2⟩
  rotate_left
  · left; rw [h2 t true rfl] at h1; exact h1
  right
  have hlow : ¬ ∃ es, f.low.step o (.run t) = some (f'.low, es) := by
    rintro ⟨es, he⟩; exact low_changes he (by rw [heq])
  have hsim : (es = [] ∧ f'.low = f.low) ∨ ∃ x, f.low.step o x = some (f'.low, es) ∧
      ∀ u b, FAct.run (K := K) t true = .run u b → x = .run u := .inl ⟨hes, heq⟩
  have hidle : f.low.pc t ≠ .idle := by
    intro hi
    simp only [Full.step, Full.runStep] at hs
    split at hs
    · simp [hi, Pc.unlocking, Low.runStep] at hs
    · rename_i ho
      rcases hI.link t with ⟨h1, _⟩ | ⟨_, k, h2⟩ | ⟨_, h2⟩
      · exact ho h1
      · rw [hi] at h2; cases h2
      · rw [hi] at h2; cases h2
  refine ⟨hes, heq, hidle, ?_⟩
  clear hes
  simp only [Full.step, Full.runStep] at hs
  split at hs
  · rename_i hout
    have hcall : ∀ {a : Mutex.Act} {m : Mutex.St} {e : List LockSpec.Ev}, Mutex.step true f.mx a = some (m, e) →
        (a = .callLock t ∨ a = .callUnlock t) →
        (∀ u, u ≠ t → frank m u = frank f.mx u) ∧ frank m t < frank f.mx t := by
      intro a m e hm ha
      rcases ha with rfl | rfl
      · simp only [Mutex.step, Mutex.St.goto] at hm
        split at hm <;> cases hm
        refine ⟨fun u hu => ?_, ?_⟩
        · simp [frank, Mutex.rank, hu]
        · simp [frank, Mutex.rank, hout]
      · simp only [Mutex.step, if_pos hout, Option.some.injEq, Prod.mk.injEq] at hm
        obtain ⟨rfl, _⟩ := hm
        refine ⟨fun u hu => ?_, ?_⟩
        · simp [frank, Mutex.rank, hu]
        · simp [frank, Mutex.rank, hout]
    split at hs
    · simp only [Option.map_eq_some_iff, Prod.mk.injEq] at hs
      obtain ⟨⟨m, es'⟩, hm, rfl, rfl⟩ := hs
      exact hcall hm (.inl rfl)
    · rename_i c k hp
      split at hs <;> cases hs
      rename_i hsl
      exact absurd ⟨[], by
        simp only [Low.step, Low.runStep, hp]
        rw [if_neg (fun hx => hsl (.inl hx))]⟩ hlow
    · split at hs
      · simp only [Option.map_eq_some_iff, Prod.mk.injEq] at hs
        obtain ⟨⟨m, es'⟩, hm, rfl, rfl⟩ := hs
        exact hcall hm (.inr rfl)
      · simp only [Option.map_eq_some_iff, Prod.mk.injEq] at hs
        obtain ⟨⟨l, es'⟩, hl, rfl, rfl⟩ := hs
        exact absurd ⟨_, hl⟩ hlow
  · rename_i hout
    split at hs
    · cases hs
    · split at hs
      · cases hs
      · rename_i m es' hm
        have hm' := mutex_false hm (by rintro u hu; cases hu)
        have hmx : f'.mx = m := by
          split at hs
          · simp only [Option.some.injEq] at hs
            have : f' = (f.back (E := E) m t es').1 := by rw [hs]
            rw [this]; simp only [Full.back]; split <;> rfl
          · cases hs; rfl
        rw [hmx]
        by_cases hmo : m.pc t = .out
        · -- the call of the mutex returns: that is a step of the ideal machine
          exfalso
          rcases hsim with ⟨h1, h2⟩ | ⟨x, h1, h2⟩
          · rw [if_pos hmo] at hs
            rcases hI.link t with ⟨q1, _⟩ | ⟨q1, k, q2⟩ | ⟨q1, q2⟩
            · exact hout q1
            · rcases mutex_lock hm q1 with ⟨_, q4, _⟩ | ⟨q3, _, _, rfl⟩
              · exact q4 hmo
              · cases hs
                have := congrArg (fun l => l.pc t) h2
                simp [Full.back, Low.locked, q2] at this
            · rcases mutex_unlock hI.mx hm q1 with ⟨_, q4, _⟩ | ⟨q3, _, _, rfl⟩
              · exact q4 hmo
              · cases hs
                have := congrArg (fun l => (l.pc t).hasM) h2
                simp only [Full.back, unlocking_hasM q2] at this
                simp only [Low.unlocked] at this
                split at this <;> simp_all [Pc.hasM, Pc.unlocking]
          · rw [h2 t true rfl] at h1; exact hlow ⟨es, h1⟩
        · obtain ⟨r1, r2⟩ := Mutex.rank_step _ _ _ _ _ hI.mx hm'
          refine ⟨fun u hu => ?_, ?_⟩
          · simp only [frank, (r1 u hu).1, (r1 u hu).2]
          · simp only [frank, if_neg hmo, if_neg hout]; simp at r2; omega

/-- One step of the program; spinning in `lock()` ends, see `FullInt`. (Concerns co_condition_variable.h:69-88, co_mutex.cpp:18-108.) -/
def SysInt {M : Type} (m : Mach M K V E) (p : Prog W L K V) (s' s : Sys W L V M) : Prop :=
  ∃ w es, s.step m p (w, true) = some (s', es)

/-- Proof device: the program consists of the coroutines `Ws` and uses the objects `Js`. (Concerns co_condition_variable.h:69-88, co_mutex.cpp:18-108.) -/
structure Uses (p : Prog W L K V) (Ws : List W) (Js : List Nat) : Prop where
  who : ∀ w ps, w ∉ Ws → p.next w ps = .stop
  obj : ∀ w ps j k h, p.next w ps = .call j k h → j ∈ Js

/-- Proof device: only these coroutines are inside calls, of these objects. (Concerns co_condition_variable.h:69-88, co_mutex.cpp:18-108.) -/
def Sys.Held {M : Type} (s : Sys W L V M) (Ws : List W) (Js : List Nat) : Prop :=
  ∀ w j h, s.inside w = some (j, h) → w ∈ Ws ∧ j ∈ Js

theorem Sys.held_step {M : Type} {m : Mach M K V E} {p : Prog W L K V} {Ws : List W} {Js : List Nat} (hu : Uses p Ws Js)
    {s s' : Sys W L V M} {a : W × Bool} {es : List (Nat × Ev K V E)} (h : s.Held Ws Js)
    (hs : s.step m p a = some (s', es)) : s'.Held Ws Js := by
  obtain ⟨w, b⟩ := a
  simp only [Sys.step] at hs
  cases hin : s.inside w with
  | none =>
    rw [hin] at hs
    simp only at hs
    cases hn : p.next w s.ps with
    | stop => rw [hn] at hs; cases hs
    | go l => rw [hn] at hs; cases hs; exact h
    | call j k g =>
      rw [hn] at hs
      simp only [Option.map_eq_some_iff] at hs
      obtain ⟨⟨f, es'⟩, hf, hs⟩ := hs
      cases hs
      intro u i g' hg
      by_cases huw : u = w
      · subst huw
        simp only [setC_same, Option.some.injEq, Prod.mk.injEq] at hg
        refine ⟨?_, hg.1 ▸ hu.obj _ _ _ _ _ hn⟩
        apply Classical.byContradiction; intro hx
        rw [hu.who _ _ hx] at hn; cases hn
      · exact h u i g' (by simpa [huw] using hg)
  | some q =>
    obtain ⟨j, g⟩ := q
    rw [hin] at hs
    simp only [Option.map_eq_some_iff] at hs
    obtain ⟨⟨f, es'⟩, hf, hs⟩ := hs
    cases hr : retOf es' with
    | none => simp only [hr] at hs; cases hs; exact h
    | some v =>
      simp only [hr] at hs; cases hs
      intro u i g' hg
      by_cases huw : u = w
      · subst huw; simp at hg
      · exact h u i g' (by simpa [huw] using hg)

/-- Proof device: the steps of condition variables still to be made in all objects. (Concerns co_condition_variable.h:69-88, co_mutex.cpp:18-108.) -/
def Sys.lowSum (Js : List Nat) (T : List Tid) (s : Sys W L V (Full σ C K V)) : Nat :=
  sumOver Js fun j => sumOver T fun u => weight (s.obs j).low.wl ((s.obs j).low.pc u)
/-- Proof device: the steps of mutexes still to be made in all objects. (Concerns co_condition_variable.h:69-88, co_mutex.cpp:18-108.) -/
def Sys.mxSum (Js : List Nat) (T : List Tid) (s : Sys W L V (Full σ C K V)) : Nat :=
  sumOver Js fun j => sumOver T fun u => frank (s.obs j).mx u

theorem Sys.quiet {o : Nat → Obj σ C K V E} {p : Prog W L K V} {Ws : List W} {Js : List Nat} {T : List Tid}
    (hJ : Js.Nodup) (hT : T.Nodup) (hTW : ∀ w ∈ Ws, p.tid w ∈ T)
    {s s' : Sys W L V (Full σ C K V)} {w : W} {es : List (Nat × Ev K V E)} (h : ∀ j, (s.obs j).Inv) (hH : s.Held Ws Js)
    (hs : s.step (fullM o) p (w, true) = some (s', es)) :
    s.abs.step (absM o) p (w, true) = some (s'.abs, es) ∨ (s'.abs = s.abs ∧
      (s'.lowSum Js T < s.lowSum Js T ∨ (s'.lowSum Js T = s.lowSum Js T ∧ s'.mxSum Js T < s.mxSum Js T))) := by
  rcases (Sys.sim_step h hs).2 with ⟨rfl, hab⟩ | hx
  rotate_left
  · exact .inl hx
  by_cases hx : s.abs.step (absM o) p (w, true) = some (s'.abs, [])
  · exact .inl hx
  refine .inr ⟨hab, ?_⟩
  simp only [Sys.step] at hs
  cases hin : s.inside w with
  | none =>
    exfalso
    rw [hin] at hs
    simp only at hs
    cases hn : p.next w s.ps with
    | stop => rw [hn] at hs; cases hs
    | go l =>
      rw [hn] at hs; cases hs
      apply hx
      simp [Sys.step, Sys.abs, hin, hn]
    | call j k g =>
      rw [hn] at hs
      simp only [Option.map_eq_some_iff] at hs
      obtain ⟨⟨f, es'⟩, hf, hs⟩ := hs
      simp only [Prod.mk.injEq, List.map_eq_nil_iff] at hs
      obtain ⟨_, rfl⟩ := hs
      simp only [fullM, Full.step] at hf
      split at hf <;> cases hf
  | some q =>
    obtain ⟨j, g⟩ := q
    obtain ⟨hwW, hj⟩ := hH w j g hin
    have ht := hTW w hwW
    rw [hin] at hs
    simp only [Option.map_eq_some_iff] at hs
    obtain ⟨⟨f, es'⟩, hf, hs⟩ := hs
    have hf : (s.obs j).step (o j) (.run (p.tid w) true) = some (f, es') := hf
    have he : es' = [] := by
      cases hr : retOf es' <;> simp only [hr, Prod.mk.injEq, List.map_eq_nil_iff] at hs <;> exact hs.2
    subst he
    simp only [retOf] at hs
    cases hs
    have hsum : ∀ (F : Full σ C K V → Nat), sumOver Js (fun i => F ((upd s.obs j f) i)) + F (s.obs j) =
        sumOver Js (fun i => F (s.obs i)) + F f := by
      intro F
      have := sumOver_single (f := fun i => F ((upd s.obs j f) i)) (g := fun i => F (s.obs i)) hJ hj (fun u hu => by simp [hu])
      simpa using this
    have hs1 := hsum (fun f => sumOver T fun u => weight f.low.wl (f.low.pc u))
    have hs2 := hsum (fun f => sumOver T fun u => frank f.mx u)
    simp only [Sys.lowSum, Sys.mxSum]
    rcases full_quiet (h j) hf with hlow | ⟨_, h1, h2, h3, h4⟩
    · left
      rcases refine_step _ _ _ _ (h j).low hlow with ⟨_, q2, q3⟩ | ⟨y, q1, q2⟩
      · rcases weight_step _ _ _ _ hlow with q4 | q4
        · rw [q3 _ rfl] at q4; cases q4
        · have hpc := run_pc_other hlow
          have hothers : ∀ u, u ≠ p.tid w → weight f.low.wl (f.low.pc u) = weight (s.obs j).low.wl ((s.obs j).low.pc u) := by
            intro u hu
            rw [hpc.1 u hu]
            cases hfm : ((s.obs j).low.pc (p.tid w)).hasM with
            | false => rw [run_wl_of_free hlow hfm]
            | true =>
              have hm := ((h j).low.m (p.tid w)).1 hfm
              refine weight_free _ _ _ ?_
              cases hfu : ((s.obs j).low.pc u).hasM with
              | false => rfl
              | true => have := ((h j).low.m u).1 hfu; rw [hm] at this; simp at this; exact absurd this.symm hu
          have := sumOver_single hT ht (f := fun u => weight f.low.wl (f.low.pc u))
            (g := fun u => weight (s.obs j).low.wl ((s.obs j).low.pc u)) hothers
          omega
      · exfalso
        apply hx
        have hrun : (absM o).run j (s.obs j).low.abs (p.tid w) true = some (f.low.abs, []) := by
          simp only [absM]
          rcases q1 _ rfl with rfl | rfl
          · split
            · rename_i v hv; simp [Abs.step, hv] at q2
            · exact q2
          · split
            · exact q2
            · rename_i hv
              exfalso
              simp only [Abs.step] at q2
              cases q2
        simp only [Sys.step, Sys.abs, hin]
        simp only [hrun, Option.map_some, retOf, upd_upd_abs, List.map_nil]
    · right
      rw [h1] at hs1
      refine ⟨by omega, ?_⟩
      have := sumOver_single hT ht (f := fun u => frank f.mx u) (g := fun u => frank (s.obs j).mx u) h3
      omega

theorem sys_acc {o : Nat → Obj σ C K V E} {p : Prog W L K V} {Ws : List W} {Js : List Nat} (hu : Uses p Ws Js)
    (hW : Ws.Nodup) (hJ : Js.Nodup) (a : Sys W L V (Abs σ C K V)) (ha : Acc (SysInt (absM o) p) a) :
    ∀ s : Sys W L V (Full σ C K V), (∀ j, (s.obs j).Inv) → s.Held Ws Js → s.abs = a → Acc (SysInt (fullM o) p) s := by
  have hT : (Ws.map p.tid).Nodup := List.pairwise_map.2 (hW.imp (fun hne h => hne (p.inj _ _ h)))
  induction ha with
  | intro a _ ih =>
    intro s
    generalize hn : s.lowSum Js (Ws.map p.tid) = n
    induction n using Nat.strongRecOn generalizing s with
    | _ n ihn =>
      generalize hm : s.mxSum Js (Ws.map p.tid) = m
      induction m using Nat.strongRecOn generalizing s with
      | _ m ihm =>
        intro hI hH hab
        refine Acc.intro s (fun s' hs' => ?_)
        obtain ⟨w, es, hs⟩ := hs'
        have hI' := (Sys.sim_step hI hs).1
        have hH' := Sys.held_step hu hH hs
        rcases Sys.quiet hJ hT (fun w hw => List.mem_map_of_mem hw) hI hH hs with h1 | ⟨h1, h2 | ⟨h2, h3⟩⟩
        · exact ih s'.abs ⟨w, es, hab ▸ h1⟩ s' hI' hH' rfl
        · exact ihn _ (by omega) s' rfl hI' hH' (h1.trans hab)
        · exact ihm _ (by omega) s' (by omega) rfl hI' hH' (h1.trans hab)

/-- **C22 for whole programs, termination**: if a program of finitely many coroutines and objects cannot go on for ever when critical
sections are single steps, it cannot with every step of every mutex and condition variable, whatever the order in which coroutines run. -/
theorem C22_programs_terminate (o : Nat → Obj σ C K V E) (p : Prog W L K V) {Ws : List W} {Js : List Nat} (hu : Uses p Ws Js)
    (hW : Ws.Nodup) (hJ : Js.Nodup) (l0 : W → L) (s0 : Nat → σ) (as : List (W × Bool))
    (s : Sys W L V (Full σ C K V)) (es : List (Nat × Ev K V E))
    (h : runs (Sys.step (fullM o) p) (Sys.initF l0 s0) as = some (s, es)) (ha : Acc (SysInt (absM o) p) s.abs) :
    ¬ ∃ g : Nat → Sys W L V (Full σ C K V), g 0 = s ∧ ∀ n, ∃ w e, (g n).step (fullM o) p (w, true) = some (g (n + 1), e) := by
  have hI := (Sys.sim as _ s es (fun j => Full.inv_init (s0 j)) h).1
  have hH := runs_inv (fun s => Sys.Held s Ws Js) (fun _ _ _ _ hI hs => Sys.held_step hu hI hs) as _ _ _
    (by intro w j g hg; simp [Sys.initF] at hg) h
  exact acc_no_infinite (sys_acc hu hW hJ _ ha s hI hH rfl)

end

/-! ## A concrete case: two gates -/

/-- Not in the library; a concrete case. Coroutine `false` makes the calls `a` one after the other, coroutine `true` the calls `b`; a call
is (gate, walk through or open). The local state is the number of calls made. (Concerns co_condition_variable.h:69-88, co_mutex.cpp:18-108.) -/
def gates (a b : List (Nat × Bool)) : Prog Bool Nat Bool Unit where
  next w ps := match (if w then b else a)[ps w]? with
    | some (j, k) => .call j k fun _ => ps w + 1
    | none => .stop
  tid w := if w then 2 else 1
  inj a b := by cases a <;> cases b <;> simp

/-- Proof device: run coroutine `w` as long as it can, at most `n` steps. (Concerns co_condition_variable.h:69-88, co_mutex.cpp:18-108.) -/
def drive (p : Prog Bool Nat Bool Unit) (w : Bool) : Nat → Sys Bool Nat Unit (Full Bool Unit Bool Unit) →
    Sys Bool Nat Unit (Full Bool Unit Bool Unit)
  | 0, s => s
  | n + 1, s => match s.step (fullM fun _ => gate) p (w, true) with
    | some r => drive p w n r.1
    | none => s

/-- Proof device: `drive` is an execution. -/
theorem drive_runs (p : Prog Bool Nat Bool Unit) (w : Bool) : ∀ n s, ∃ as es, runs (Sys.step (fullM fun _ => gate) p) s as =
    some (drive p w n s, es) := by
  intro n
  induction n with
  | zero => intro s; exact ⟨[], [], rfl⟩
  | succ n ih =>
    intro s
    simp only [drive]
    split
    · next r hr =>
      obtain ⟨as, es, h⟩ := ih r.1
      exact ⟨(w, true) :: as, r.2 ++ es, by simp only [runs, hr, h]⟩
    · exact ⟨[], [], rfl⟩

/-- 1 waits at gate 0, which 2 opens before it waits at gate 1, which 1 opens: both get through. -/
example :
    let s := drive (gates [(0, true), (1, false)] [(0, false), (1, true)]) true 60
      (drive (gates [(0, true), (1, false)] [(0, false), (1, true)]) false 60
      (drive (gates [(0, true), (1, false)] [(0, false), (1, true)]) true 60
      (drive (gates [(0, true), (1, false)] [(0, false), (1, true)]) false 60 (Sys.initF (fun _ => 0) fun _ => false))))
    (s.ps false, s.ps true, (s.obs 0).low.sh, (s.obs 1).low.sh) = (2, 2, true, true) := by decide

/-- A deadlock, as `C22_programs_stuck` describes it: 1 waits at gate 0, which 2 would open after walking through gate 1, at which 2
waits; both mutexes are free. -/
example :
    let p := gates [(0, true), (1, false)] [(1, true), (0, false)]
    let s := drive p true 60 (drive p false 60 (Sys.initF (fun _ => 0) fun _ => false))
    (s.ps false, s.ps true, (s.obs 0).low.pc 1, (s.obs 1).low.pc 2, (s.obs 0).mx.owner, (s.obs 1).mx.owner,
      (s.step (fullM fun _ => gate) p (false, true)).isNone, (s.step (fullM fun _ => gate) p (true, true)).isNone) =
    (0, 0, .pYield () true, .pYield () true, none, none, true, true) := rfl

end Verif.Monitor
