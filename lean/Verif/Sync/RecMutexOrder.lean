import Verif.Sync.RecMutexInv
import Verif.Base.Sum

/-! # co_recursive_mutex: order of acquisition and termination measures (helper lemmas) -/

namespace Verif.RecMutex
open LockSpec

/-- Nesting depths after an event, as its observer counts them. (Concerns co_recursive_mutex.cpp:14-107.) -/
def track1 (d : Tid → Nat) : Ev → Tid → Nat
  | .acq t => upd d t (d t + 1)
  | .unlockCall t => upd d t (d t - 1)
  | _ => d

/-- The coroutines whose outermost acquisitions (depth zero to one) a trace shows, in order, for an
observer that starts with the depths `d`. (Concerns co_recursive_mutex.cpp:14-107.) -/
def firsts : (Tid → Nat) → List Ev → List Tid
  | _, [] => []
  | d, e :: es =>
    (match e with | .acq t => if d t = 0 then [t] else [] | _ => []) ++ firsts (track1 d e) es

/-- Nesting depths after a trace. (Concerns co_recursive_mutex.cpp:14-107.) -/
def track (d : Tid → Nat) (es : List Ev) : Tid → Nat := es.foldl track1 d

theorem firsts_append (d : Tid → Nat) (a b : List Ev) :
    firsts d (a ++ b) = firsts d a ++ firsts (track d a) b := by
  induction a generalizing d with
  | nil => rfl
  | cons e a ih => simp [firsts, ih, track]

/-- Program points of a call that has been given the mutex but has not returned yet. (Concerns co_recursive_mutex.cpp:14-107.) -/
def Pc.granting : Pc → Bool
  | .lkLoop | .lkParked | .lkReacq2 | .lkRet | .tlRet true => true
  | _ => false

/-- The coroutine that already owns the mutex but whose outermost `lock()`/`try_lock()` has not
returned. (Concerns co_recursive_mutex.cpp:14-107.) -/
def granted (s : St) : List Tid :=
  match s.owner with
  | none => []
  | some u => if (s.pc u).granting && s.depth u == 0 then [u] else []

/-- The order in which the coroutines known to the mutex will acquire it. (Concerns co_recursive_mutex.cpp:14-107.) -/
def expected (s : St) : List Tid := granted s ++ s.queue

theorem granted_frame {s s' : St} (ho : s'.owner = s.owner)
    (hg : ∀ u, s.owner = some u →
      ((s'.pc u).granting && s'.depth u == 0) = ((s.pc u).granting && s.depth u == 0)) :
    granted s' = granted s := by
  unfold granted
  rw [ho]
  cases h : s.owner with
  | none => rfl
  | some u => simp [hg u h]

theorem track_step (s : St) (a : Act) (s' : St) (es : List Ev)
    (hs : step s a = some (s', es)) : track s.depth es = s'.depth := by
  cases a with
  | callLock t | callTry t | callUnlock t =>
    simp only [step, St.goto] at hs
    split at hs <;> cases hs
    rfl
  | run t b =>
    simp only [step, runStep] at hs
    cases hpc : s.pc t <;> simp only [hpc, St.acquire, St.goto, St.take] at hs
    case tlRet bb => cases bb <;> cases hs <;> rfl
    all_goals
      (repeat' split at hs) <;> (try cases hs)
      all_goals rfl

theorem order_step (s : St) (a : Act) (s' : St) (es : List Ev) (h : Inv s)
    (hs : step s a = some (s', es)) :
    ∃ new, firsts s.depth es ++ expected s' = expected s ++ new := by
  have hown := fun u => h.owner_of_depth (t := u)
  obtain ⟨hl, h1, h4, h5⟩ := h
  cases a with
  | callLock t | callTry t | callUnlock t =>
    simp only [step, St.goto] at hs
    split at hs <;> cases hs
    refine ⟨[], ?_⟩
    simp only [firsts, expected, List.nil_append, List.append_nil]
    congr 1
    refine granted_frame rfl (fun u hu => ?_)
    have hlu := hl u
    simp only [Loc] at hlu
    grind [Pc.granting]
  | run t b =>
    have hlt := hl t
    have h1t := h1 t
    simp only [step, runStep] at hs
    cases hpc : s.pc t <;> simp only [hpc, St.acquire, St.goto, St.take] at hs h1t <;>
      simp only [Loc, hpc] at hlt
    case lkFast | lkSpin | lkCheck | tlTest =>
      all_goals
        (repeat' split at hs) <;> (try cases hs)
        all_goals first
          | (refine ⟨[], ?_⟩
             simp only [firsts, expected, List.nil_append, List.append_nil]
             congr 1
             refine granted_frame (by first | rfl | grind) (fun u hu => ?_)
             grind [Pc.granting]
             done)
          | (refine ⟨[t], ?_⟩
             simp only [firsts, expected, List.nil_append, List.append_assoc]
             congr 1
             refine granted_frame (by first | rfl | grind) (fun u hu => ?_)
             grind [Pc.granting]
             done)
          | (have ho : s.owner = none := by grind
             have hq := (h5 ho).1
             have hd : s.depth t = 0 := by grind
             refine ⟨[t], ?_⟩
             simp [firsts, expected, granted, ho, hq, hd, Pc.granting])
          | (by_cases ho : s.owner = none
             · have hq := (h5 ho).1
               have hd : s.depth t = 0 := by grind
               refine ⟨[t], ?_⟩
               simp [firsts, expected, granted, ho, hq, hd, Pc.granting]
             · have ho' : s.owner = some t := by grind
               have hd : s.depth t ≠ 0 := by grind
               refine ⟨[], ?_⟩
               simp [firsts, expected, granted, ho', hd])
    case ulTest hb =>
      have hgf : (Pc.ulTest hb).granting = false := rfl
      (repeat' split at hs) <;> (try cases hs)
      · refine ⟨[], ?_⟩
        simp only [firsts, expected, List.nil_append, List.append_nil]
        congr 1
        refine granted_frame rfl (fun u hu => ?_)
        grind [Pc.granting]
      · rename_i ho hc _ hq
        refine ⟨[], ?_⟩
        simp [firsts, expected, granted, ho, hpc, hq, hgf]
      · rename_i ho hc _ u rest hq
        have hlu := hl u
        have h1u := h1 u
        have hne : u ≠ t := by grind
        have : (s.pc u).granting = true ∧ s.depth u = 0 := by
          simp only [Loc] at hlu
          have hns : (s.pc u).spin = true → False := by grind [Pc.spin]
          cases hpu : s.pc u <;> simp only [hpu, Pc.spin] at hlu hns <;> grind [Pc.granting]
        refine ⟨[], ?_⟩
        simp [firsts, expected, granted, upd_other _ _ hne, hq, hgf, ho, hpc, this]
      · refine ⟨[], ?_⟩
        simp only [firsts, expected, List.nil_append, List.append_nil]
        congr 1
        refine granted_frame rfl (fun u hu => ?_)
        grind [Pc.granting]
    case tlRet bb =>
      refine ⟨[], ?_⟩
      cases bb
      · cases hs
        simp only [firsts, expected, Bool.false_eq_true, if_false, List.nil_append, List.append_nil]
        congr 1
        refine granted_frame rfl (fun u hu => ?_)
        grind [Pc.granting]
      · cases hs
        by_cases hd : s.depth t = 0 <;>
          simp [firsts, expected, granted, hlt, hpc, Pc.granting, hd]
    case lkRet =>
      cases hs
      refine ⟨[], ?_⟩
      by_cases hd : s.depth t = 0 <;>
        simp [firsts, expected, granted, hlt, hpc, Pc.granting, hd]
    all_goals
      (repeat' split at hs) <;> (try cases hs)
      all_goals
        refine ⟨[], ?_⟩
        simp only [firsts, expected, List.nil_append, List.append_nil]
        congr 1
        refine granted_frame rfl (fun u hu => ?_)
        grind [Pc.granting]

theorem order_runs (as : List Act) : ∀ (s s' : St) (es : List Ev), Inv s →
    runs step s as = some (s', es) →
    ∃ new, firsts s.depth es ++ expected s' = expected s ++ new := by
  induction as with
  | nil =>
    intro s s' es _ h
    simp only [runs, Option.some.injEq, Prod.mk.injEq] at h
    obtain ⟨rfl, rfl⟩ := h
    exact ⟨[], by simp [firsts]⟩
  | cons a as ih =>
    intro s s' es hI h
    obtain ⟨s1, e1, e2, h1, h2, rfl⟩ := runs_cons h
    obtain ⟨n1, hn1⟩ := order_step s a s1 e1 hI h1
    obtain ⟨n2, hn2⟩ := ih s1 s' e2 (inv_step s a s1 e1 hI h1) h2
    refine ⟨n1 ++ n2, ?_⟩
    rw [firsts_append, track_step s a s1 e1 h1, List.append_assoc, hn2, ← List.append_assoc, hn1,
      List.append_assoc]

/-! ## Termination -/

/-- Number of steps coroutine `t` still has to make, clock permitting. (Concerns co_recursive_mutex.cpp:14-107.) -/
def rank (s : St) (t : Tid) : Nat :=
  match s.pc t with
  | .out => 0
  | .lkRet | .tlRet _ | .ulRet _ => 1
  | .tlTest | .ulTest _ => 2
  | .tlAcq | .ulAcq _ => 3
  | .lkReacq2 => 3
  | .lkParked => 4
  | .lkSleep => 5
  | .lkLoop => if s.owner = some t then 2 else 6
  | .lkCheck => 7
  | .lkSpin => 8
  | .lkFast | .lkReacq => 9
  | .lkAcq | .lkYield => 10

theorem rank_step (s : St) (t : Tid) (b : Bool) (s' : St) (es : List Ev) (h : Inv s)
    (hs : step s (.run t b) = some (s', es)) :
    (∀ u, u ≠ t → rank s' u = rank s u ∧ (s'.pc u = s.pc u)) ∧
    rank s' t + 1 ≤ rank s t + (if b then 0 else 3) := by
  obtain ⟨hl, h1, h4, h5⟩ := h
  have hlt := hl t
  have h1t := h1 t
  simp only [step, runStep] at hs
  cases hpc : s.pc t <;> simp only [hpc, St.acquire, St.goto, St.take] at hs h1t <;>
    simp only [Loc, hpc] at hlt <;>
    (repeat' split at hs) <;> (try cases hs) <;> refine ⟨fun u hu => ?_, ?_⟩
  all_goals first
    | (have h1u := h1 u
       refine ⟨?_, by simp [hu]⟩
       simp only [rank, upd_other _ _ hu]
       first
         | rfl
         | (cases hpu : s.pc u <;> simp only [hpu, Pc.spin] at h1u <;> grind [Pc.spin]))
    | (simp only [rank, hpc, upd_same]; grind)

theorem rank_le (s : St) (t : Tid) : rank s t ≤ 10 := by
  simp only [rank]
  grind

/-- A schedule: which coroutine runs and what the clock says when it looks. (Concerns co_recursive_mutex.cpp:14-107.) -/
abbrev Sched := List (Tid × Bool)

/-- The actions of a schedule without any new call. (Concerns co_recursive_mutex.cpp:14-107.) -/
def Sched.acts (c : Sched) : List Act := c.map fun p => .run p.1 p.2

/-- How often the clock said that the spin time is not over yet. (Concerns co_recursive_mutex.cpp:14-107.) -/
def Sched.spins (c : Sched) : Nat := c.countP fun p => !p.2

theorem bounded (L : List Tid) (hn : L.Nodup) (c : Sched) : ∀ (s s' : St) (es : List Ev), Inv s →
    (∀ u, u ∉ L → s.pc u = .out) → runs step s c.acts = some (s', es) →
    c.length + sumOver L (rank s') ≤ sumOver L (rank s) + 3 * c.spins := by
  induction c with
  | nil =>
    intro s s' es _ _ h
    simp only [Sched.acts, List.map_nil, runs, Option.some.injEq, Prod.mk.injEq] at h
    simp [h.1]
  | cons p c ih =>
    intro s s' es hI hL h
    simp only [Sched.acts, List.map_cons] at h
    obtain ⟨s1, e1, e2, h1, h2, rfl⟩ := runs_cons h
    obtain ⟨t, b⟩ := p
    have hr := rank_step s t b s1 e1 hI h1
    have ht : t ∈ L := by
      apply Classical.byContradiction
      intro htL
      have := hL t htL
      simp [step, runStep, this] at h1
    have h3 := ih s1 s' e2 (inv_step _ _ _ _ hI h1) (fun u hu => by
      have hut : u ≠ t := by rintro rfl; exact hu ht
      rw [(hr.1 u hut).2]; exact hL u hu) h2
    have h4 := sumOver_single (f := rank s1) (g := rank s) hn ht (fun u hu => (hr.1 u hu).1)
    have h5 := hr.2
    simp only [List.length_cons, Sched.spins, List.countP_cons] at h3 ⊢
    cases b <;> simp at h5 ⊢ <;> omega

/-- When no coroutine inside a call can make a step, everybody inside a call is asleep in the queue
behind a client that holds the mutex and is not inside a call. -/
theorem stuck (s : St) (h : Inv s) (hstuck : ∀ t b, step s (.run t b) = none) (t : Tid)
    (ht : s.pc t ≠ .out) :
    s.pc t = .lkParked ∧ t ∈ s.queue ∧ ∃ u, s.owner = some u ∧ 0 < s.depth u ∧ s.pc u = .out := by
  obtain ⟨hl, h1, h4, h5⟩ := h
  have hspin : s.spin = none := by
    cases hsp : s.spin with
    | none => rfl
    | some u =>
      exfalso
      have hu := (h1 u).2 hsp
      have := hstuck u true
      simp only [step, runStep] at this
      cases hpc : s.pc u <;> simp only [hpc, Pc.spin, St.goto, St.take] at this hu <;>
        (repeat' split at this) <;> simp_all
  have key : ∀ v, s.pc v ≠ .out → s.pc v = .lkParked ∧ s.asleep v = true := by
    intro v hv
    have := hstuck v true
    simp only [step, runStep] at this
    cases hpc : s.pc v <;> simp only [hpc, St.goto, St.acquire, St.take, hspin] at this hv <;>
      (repeat' split at this) <;> simp_all
  have hp := key t ht
  have hlt := hl t
  simp only [Loc, hp.1] at hlt
  refine ⟨hp.1, by grind, ?_⟩
  cases ho : s.owner with
  | none => grind
  | some u =>
    refine ⟨u, rfl, ?_⟩
    have hlu := hl u
    by_cases hu : s.pc u = .out
    · simp only [Loc, hu] at hlu; grind
    · have := key u hu
      simp only [Loc, this.1] at hlu; grind

end Verif.RecMutex
