import Verif.Sync.MutexInv
import Verif.Base.Sum

/-! # co_mutex: order of acquisition and termination measures (helper lemmas) -/

namespace Verif.Mutex
open LockSpec

/-- The coroutines whose acquisitions a trace shows, in order. (Concerns co_mutex.cpp:17-108.) -/
def acqs (es : List Ev) : List Tid :=
  es.filterMap fun e => match e with | .acq t => some t | _ => none

theorem acqs_append (a b : List Ev) : acqs (a ++ b) = acqs a ++ acqs b := by
  simp [acqs]

/-- Number of successful `unlock()` returns a trace shows. (Concerns co_mutex.cpp:17-108.) -/
def unlocks (es : List Ev) : Nat :=
  es.countP fun e => match e with | .unlockRet _ ok => ok | _ => false

theorem unlocks_append (a b : List Ev) : unlocks (a ++ b) = unlocks a + unlocks b := by
  simp [unlocks]

/-- Program points of a call that has been given the mutex but has not returned yet. (Concerns co_mutex.cpp:17-108.) -/
def Pc.granting : Pc → Bool
  | .lkLoop | .lkParked | .lkReacq2 | .lkRet | .tlRet true => true
  | _ => false

/-- The coroutine that already owns the mutex but whose `lock()`/`try_lock()` has not returned. (Concerns co_mutex.cpp:17-108.) -/
def granted (s : St) : List Tid :=
  match s.owner with
  | none => []
  | some u => if (s.pc u).granting then [u] else []

/-- The order in which the coroutines known to the mutex will acquire it. (Concerns co_mutex.cpp:17-108.) -/
def expected (s : St) : List Tid := granted s ++ s.queue

theorem granted_frame {s s' : St} (ho : s'.owner = s.owner)
    (hg : ∀ u, s.owner = some u → (s'.pc u).granting = (s.pc u).granting) :
    granted s' = granted s := by
  unfold granted
  rw [ho]
  cases h : s.owner with
  | none => rfl
  | some u => simp [hg u h]

theorem order_step (s : St) (a : Act) (s' : St) (es : List Ev) (h : Inv s)
    (hs : step false s a = some (s', es)) :
    ∃ new, acqs es ++ expected s' = expected s ++ new := by
  have hown := fun u => h.owner_of_hold (t := u)
  obtain ⟨hl, h1, h4, h5⟩ := h
  cases a with
  | callLock t =>
    simp only [step, St.goto] at hs
    split at hs <;> cases hs
    refine ⟨[], ?_⟩
    simp only [acqs, expected, granted]
    grind [Pc.granting]
  | callTry t =>
    simp only [step, St.goto] at hs
    split at hs <;> cases hs
    refine ⟨[], ?_⟩
    simp only [acqs, expected, granted]
    grind [Pc.granting]
  | callUnlock t =>
    simp only [step] at hs
    split at hs <;> cases hs
    refine ⟨[], ?_⟩
    simp only [acqs, expected, granted]
    grind [Pc.granting]
  | run t b =>
    have hlt := hl t
    have h1t := h1 t
    simp only [step, runStep] at hs
    cases hpc : s.pc t <;> simp only [hpc, St.acquire, St.goto] at hs h1t <;>
      simp only [Loc, hpc] at hlt
    case lkSpin | lkCheck | tlTest =>
      all_goals
        (repeat' split at hs) <;> (try cases hs)
        all_goals first
          | (refine ⟨[], ?_⟩
             simp only [acqs, expected, granted]
             grind [Pc.granting])
          | (refine ⟨[t], ?_⟩
             simp only [acqs, expected, granted]
             cases ho : s.owner
             · simp_all [Pc.granting]
             · rename_i w
               have hw : w ≠ t := by grind
               first
                 | (exfalso; simp_all; done)
                 | simp [upd_other _ _ hw])
    case ulTest =>
      (repeat' split at hs) <;> (try cases hs)
      · refine ⟨[], ?_⟩
        simp only [acqs, expected, granted]
        grind [Pc.granting]
      · rename_i u rest hq
        have hlu := hl u
        have h1u := h1 u
        have hne : u ≠ t := by grind
        have : (s.pc u).granting = true := by
          simp only [Loc] at hlu
          have hns : (s.pc u).spin = true → False := by grind [Pc.spin]
          cases hpu : s.pc u <;> simp only [hpu, Pc.spin] at hlu hns <;> grind [Pc.granting]
        refine ⟨[], ?_⟩
        simp [acqs, expected, granted, upd_other _ _ hne, hq, Pc.granting]
        grind [Pc.granting]
      · refine ⟨[], ?_⟩
        simp only [acqs, expected, granted]
        grind [Pc.granting]
    case tlRet =>
      cases hs
      refine ⟨[], ?_⟩
      rename_i bb
      cases bb
      · simp [acqs, expected, granted]
        grind [Pc.granting]
      · simp [acqs, expected, granted, hlt, hpc, Pc.granting]
    case lkRet =>
      cases hs
      refine ⟨[], ?_⟩
      simp [acqs, expected, granted, hlt, hpc, Pc.granting]
    case ulRet =>
      cases hs
      refine ⟨[], ?_⟩
      simp [acqs, expected, granted]
      grind [Pc.granting]
    all_goals
      (try split at hs) <;> (try cases hs)
      all_goals
        refine ⟨[], ?_⟩
        simp only [acqs, expected, List.filterMap_nil, List.nil_append, List.append_nil]
        congr 1
        refine granted_frame rfl (fun u hu => ?_)
        grind [Pc.granting]

theorem order_runs (as : List Act) : ∀ (s s' : St) (es : List Ev), Inv s →
    runs (step false) s as = some (s', es) →
    ∃ new, acqs es ++ expected s' = expected s ++ new := by
  induction as with
  | nil =>
    intro s s' es _ h
    simp only [runs, Option.some.injEq, Prod.mk.injEq] at h
    obtain ⟨rfl, rfl⟩ := h
    exact ⟨[], by simp [acqs]⟩
  | cons a as ih =>
    intro s s' es hI h
    obtain ⟨s1, e1, e2, h1, h2, rfl⟩ := runs_cons h
    obtain ⟨n1, hn1⟩ := order_step s a s1 e1 hI h1
    obtain ⟨n2, hn2⟩ := ih s1 s' e2 (inv_step s a s1 e1 hI h1) h2
    refine ⟨n1 ++ n2, ?_⟩
    rw [acqs_append, List.append_assoc, hn2, ← List.append_assoc, hn1, List.append_assoc]

/-! ## Releases between queueing and acquisition -/

/-- How many releases coroutine `t` still has to wait for. (Concerns co_mutex.cpp:17-108.) -/
def waitFor (s : St) (t : Tid) : Nat :=
  if t ∈ s.queue then s.queue.idxOf t + 1 else 0

/-- A successful `unlock()` has taken effect but has not returned yet. (Concerns co_mutex.cpp:17-108.) -/
def releasing (s : St) : Nat :=
  match s.spin with
  | none => 0
  | some u => if s.pc u = .ulRet true then 1 else 0

/-- Program points at which a coroutine is queued or has been handed the mutex, inside `lock()`. (Concerns co_mutex.cpp:17-108.) -/
def Pc.queued : Pc → Bool
  | .lkLoop | .lkSleep | .lkParked | .lkReacq2 | .lkRet => true
  | _ => false

theorem release_step (s : St) (a : Act) (s' : St) (es : List Ev) (t : Tid) (h : Inv s)
    (hs : step false s a = some (s', es)) (hq : (s.pc t).queued = true)
    (hq' : (s'.pc t).queued = true) :
    waitFor s t + releasing s = waitFor s' t + releasing s' + unlocks es := by
  have hown := fun u => h.owner_of_hold (t := u)
  obtain ⟨hl, h1, h4, h5⟩ := h
  have hlt := hl t
  cases a with
  | callLock u | callTry u | callUnlock u =>
    simp only [step, St.goto] at hs
    split at hs <;> cases hs
    have : s.spin ≠ some u := by grind [Pc.spin]
    simp only [waitFor, releasing, unlocks]
    grind
  | run u b =>
    have hlu := hl u
    have h1u := h1 u
    simp only [step, runStep] at hs
    cases hpc : s.pc u <;> simp only [hpc, St.acquire, St.goto] at hs h1u <;>
      simp only [Loc, hpc] at hlu
    case ulTest =>
      have hne : t ≠ u := by grind [Pc.queued]
      have hsp : s.spin = some u := h1u.1 rfl
      (repeat' split at hs) <;> (try cases hs)
      · exfalso
        simp only [Loc] at hlt
        cases hpt : s.pc t <;> simp only [hpt, Pc.queued] at hlt hq <;> grind
      · rename_i v rest hqu
        have hmem : t ∈ s.queue := by
          simp only [Loc] at hlt
          cases hpt : s.pc t <;> simp only [hpt, Pc.queued] at hlt hq <;> grind
        simp only [waitFor, releasing, hsp, hpc, unlocks, upd_same, hqu] at *
        by_cases htv : t = v
        · subst htv
          have : t ∉ rest := by grind
          simp [this]
        · have : t ∈ rest := by grind
          have hvt : (v == t) = false := beq_false_of_ne (fun hh => htv hh.symm)
          simp [this, List.idxOf_cons, hvt]
      · simp [waitFor, releasing, hsp, hpc, unlocks]
    case ulRet ok =>
      have hne : t ≠ u := by grind [Pc.queued]
      have hsp : s.spin = some u := h1u.1 rfl
      cases hs
      cases ok <;> simp [waitFor, releasing, hsp, hpc, unlocks]
    case lkCheck =>
      have hne : t ≠ u := by grind [Pc.queued]
      have hsp : s.spin = some u := h1u.1 rfl
      split at hs <;> cases hs
      · simp [waitFor, releasing, hsp, hpc, unlocks]
      · simp only [waitFor, releasing, hsp, hpc, unlocks, upd_same]
        by_cases hm : t ∈ s.queue
        · simp [hm, List.idxOf_append]
        · simp [hm, hne]
    case lkRet =>
      have hsp : s.spin = some u := h1u.1 rfl
      cases hs
      simp [waitFor, releasing, hsp, hpc, unlocks]
    case tlRet b =>
      have hsp : s.spin = some u := h1u.1 rfl
      cases hs
      cases b <;> simp [waitFor, releasing, hsp, hpc, unlocks]
    all_goals
      (repeat' split at hs) <;> (try cases hs)
      all_goals
        simp only [waitFor, releasing, unlocks]
        grind [Pc.spin]

theorem release_runs (as : List Act) (t : Tid) : ∀ (s s' : St) (es : List Ev), Inv s →
    runs (step false) s as = some (s', es) → (s.pc t).queued = true → (s'.pc t).queued = true →
    .acq t ∉ es →
    waitFor s t + releasing s = waitFor s' t + releasing s' + unlocks es := by
  induction as with
  | nil =>
    intro s s' es _ h _ _ _
    simp only [runs, Option.some.injEq, Prod.mk.injEq] at h
    obtain ⟨rfl, rfl⟩ := h
    simp [unlocks]
  | cons a as ih =>
    intro s s' es hI h hq hq' hna
    obtain ⟨s1, e1, e2, h1, h2, rfl⟩ := runs_cons h
    have hI1 := inv_step s a s1 e1 hI h1
    have hq1 : (s1.pc t).queued = true := by
      clear h2 h ih
      cases a with
      | callLock u | callTry u | callUnlock u =>
        simp only [step, St.goto] at h1
        split at h1 <;> cases h1
        grind [Pc.queued]
      | run u b =>
        simp only [step, runStep] at h1
        have hlu := hI.loc u
        by_cases hu : t = u
        · subst hu
          simp only [Loc] at hlu
          cases hpc : s.pc t <;> simp only [hpc, St.acquire, St.goto, Pc.queued] at h1 hq hlu <;>
            (try cases hq) <;> (repeat' split at h1) <;> (try cases h1) <;> simp [Pc.queued]
          exact hna (by simp)
        · have : s1.pc t = s.pc t := by
            cases hpc : s.pc u <;> simp only [hpc, St.acquire, St.goto] at h1 <;>
              (repeat' split at h1) <;> (try cases h1) <;> simp [hu]
          rw [this]; exact hq
    have e1 := release_step s a s1 e1 t hI h1 hq hq1
    have e2 := ih s1 s' e2 hI1 h2 hq1 hq' (by grind)
    rw [unlocks_append]; omega

/-! ## Termination -/

/-- Number of steps coroutine `t` still has to make, clock permitting. (Concerns co_mutex.cpp:17-108.) -/
def rank (s : St) (t : Tid) : Nat :=
  match s.pc t with
  | .out => 0
  | .lkRet | .tlRet _ | .ulRet _ => 1
  | .tlTest | .ulTest _ => 2
  | .tlAcq | .ulAcq _ => 3
  | .lkReacq2 => 3
  | .lkParked => 4
  | .lkSleep => 5
  | .lkLoop => if s.owner = some t then 2 else 6
  | .lkCheck => 7
  | .lkSpin => 8
  | .lkAcq | .lkReacq => 9
  | .lkYield => 10

theorem rank_step (s : St) (t : Tid) (b : Bool) (s' : St) (es : List Ev) (h : Inv s)
    (hs : step false s (.run t b) = some (s', es)) :
    (∀ u, u ≠ t → rank s' u = rank s u ∧ (s'.pc u = s.pc u)) ∧
    rank s' t + 1 ≤ rank s t + (if b then 0 else 3) := by
  obtain ⟨hl, h1, h4, h5⟩ := h
  have hlt := hl t
  have h1t := h1 t
  simp only [step, runStep] at hs
  cases hpc : s.pc t <;> simp only [hpc, St.acquire, St.goto] at hs h1t <;>
    simp only [Loc, hpc] at hlt <;>
    (repeat' split at hs) <;> (try cases hs) <;> refine ⟨fun u hu => ?_, ?_⟩
  all_goals first
    | (have h1u := h1 u
       refine ⟨?_, by simp [hu]⟩
       simp only [rank, upd_other _ _ hu]
       first
         | rfl
         | (cases hpu : s.pc u <;> simp only [hpu, Pc.spin] at h1u <;> grind [Pc.spin]))
    | (simp only [rank, hpc, upd_same]; grind)

theorem rank_le (s : St) (t : Tid) : rank s t ≤ 10 := by
  simp only [rank]
  grind

/-- A schedule: which coroutine runs and what the clock says when it looks. (Concerns co_mutex.cpp:17-108.) -/
abbrev Sched := List (Tid × Bool)

/-- The actions of a schedule without any new call. (Concerns co_mutex.cpp:17-108.) -/
def Sched.acts (c : Sched) : List Act := c.map fun p => .run p.1 p.2

/-- How often the clock said that the spin time is not over yet. (Concerns co_mutex.cpp:17-108.) -/
def Sched.spins (c : Sched) : Nat := c.countP fun p => !p.2

theorem bounded (L : List Tid) (hn : L.Nodup) (c : Sched) : ∀ (s s' : St) (es : List Ev), Inv s →
    (∀ u, u ∉ L → s.pc u = .out) → runs (step false) s c.acts = some (s', es) →
    c.length + sumOver L (rank s') ≤ sumOver L (rank s) + 3 * c.spins := by
  induction c with
  | nil =>
    intro s s' es _ _ h
    simp only [Sched.acts, List.map_nil, runs, Option.some.injEq, Prod.mk.injEq] at h
    simp [h.1]
  | cons p c ih =>
    intro s s' es hI hL h
    simp only [Sched.acts, List.map_cons] at h
    obtain ⟨s1, e1, e2, h1, h2, rfl⟩ := runs_cons h
    obtain ⟨t, b⟩ := p
    have hr := rank_step s t b s1 e1 hI h1
    have ht : t ∈ L := by
      apply Classical.byContradiction
      intro htL
      have := hL t htL
      simp [step, runStep, this] at h1
    have h3 := ih s1 s' e2 (inv_step _ _ _ _ hI h1) (fun u hu => by
      have hut : u ≠ t := by rintro rfl; exact hu ht
      rw [(hr.1 u hut).2]; exact hL u hu) h2
    have h4 := sumOver_single (f := rank s1) (g := rank s) hn ht (fun u hu => (hr.1 u hu).1)
    have h5 := hr.2
    simp only [List.length_cons, Sched.spins, List.countP_cons] at h3 ⊢
    cases b <;> simp at h5 ⊢ <;> omega

/-- When no coroutine inside a call can make a step, everybody inside a call is asleep in the queue
behind a client that holds the mutex and is not inside a call. -/
theorem stuck (s : St) (h : Inv s) (hstuck : ∀ t b, step false s (.run t b) = none) (t : Tid)
    (ht : s.pc t ≠ .out) :
    s.pc t = .lkParked ∧ t ∈ s.queue ∧ ∃ u, s.owner = some u ∧ s.hold u = true ∧ s.pc u = .out := by
  obtain ⟨hl, h1, h4, h5⟩ := h
  have hspin : s.spin = none := by
    cases hsp : s.spin with
    | none => rfl
    | some u =>
      exfalso
      have hu := (h1 u).2 hsp
      have := hstuck u true
      simp only [step, runStep] at this
      cases hpc : s.pc u <;> simp only [hpc, Pc.spin, St.goto] at this hu <;>
        (repeat' split at this) <;> simp_all
  have key : ∀ v, s.pc v ≠ .out → s.pc v = .lkParked ∧ s.asleep v = true := by
    intro v hv
    have := hstuck v true
    simp only [step, runStep] at this
    cases hpc : s.pc v <;> simp only [hpc, St.goto, St.acquire, hspin] at this hv <;>
      (repeat' split at this) <;> simp_all
  have hp := key t ht
  have hlt := hl t
  simp only [Loc, hp.1] at hlt
  refine ⟨hp.1, by grind, ?_⟩
  cases ho : s.owner with
  | none => grind
  | some u =>
    refine ⟨u, rfl, ?_⟩
    have hlu := hl u
    by_cases hu : s.pc u = .out
    · simp only [Loc, hu] at hlu; grind
    · have := key u hu
      simp only [Loc, this.1] at hlu; grind

end Verif.Mutex
