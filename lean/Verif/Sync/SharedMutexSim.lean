import Verif.Sync.SharedMutexInv

/-! # co_shared_mutex: simulation by the specification, waking, termination (helper lemmas) -/

namespace Verif.SharedMutex
open RwSpec

/-- What a pending unlock of a coroutine at this program point will do. (Concerns co_shared_mutex.cpp:15-218.) -/
def Pc.pend : Pc → Option Bool
  | .ulAcq _ h | .ulTest _ h => some h
  | .ulRet _ ok => some ok
  | _ => none

/-- Relation between the model and the specification state. (Concerns co_shared_mutex.cpp:15-218.) -/
structure R (s : St) (q : Q) : Prop where
  inv : Inv s
  w : ∀ t, q.w = some t ↔ s.hold t = some .unique
  r : ∀ t, t ∈ q.r ↔ s.hold t = some .shared
  nodup : q.r.Nodup
  pend : ∀ t b, (s.pc t).pend = some b → q.pend t = some b

theorem R_init : R St.init Q.init :=
  ⟨inv_init, by simp [St.init, Q.init], by simp [St.init, Q.init], by simp [Q.init],
   by simp [St.init, Pc.pend]⟩

theorem hold_acq {s : St} {q : Q} (h : R s q) {t : Tid} {m : Mode} (hin : t ∈ s.owners)
    (htyp : s.typ = some m) (hh : s.hold t = none) :
    (m = .unique → q.w = none ∧ q.r = []) ∧ (m = .shared → q.w = none ∧ t ∉ q.r) := by
  have hno : ∀ u, q.w = some u → m = .unique ∧ u ∈ s.owners := by
    intro u hu
    have := loc_hold (h.inv.loc u) ((h.w u).1 hu)
    rw [htyp] at this
    exact ⟨by simpa using this.2, this.1⟩
  have hnr : ∀ u, u ∈ q.r → m = .shared ∧ u ∈ s.owners := by
    intro u hu
    have := loc_hold (h.inv.loc u) ((h.r u).1 hu)
    rw [htyp] at this
    exact ⟨by simpa using this.2, this.1⟩
  refine ⟨fun hm => ⟨?_, ?_⟩, fun hm => ⟨?_, ?_⟩⟩
  · cases hw : q.w with
    | none => rfl
    | some u =>
      exfalso
      subst hm
      obtain ⟨v, hv⟩ := h.inv.uniq htyp
      have h1 := (hno u hw).2
      have := (h.w u).1 hw
      rw [hv] at h1 hin
      simp only [List.mem_singleton] at h1 hin
      rw [h1, ← hin, hh] at this
      cases this
  · rw [List.eq_nil_iff_forall_not_mem]
    intro u hu
    have := (hnr u hu).1
    rw [hm] at this; cases this
  · cases hw : q.w with
    | none => rfl
    | some u => have := (hno u hw).1; rw [hm] at this; cases this
  · intro hu
    rw [h.r, hh] at hu; cases hu

theorem step_sim (s : St) (a : Act) (s' : St) (es : List Ev) (q : Q) (hR : R s q)
    (hm : ¬ MixedWake s a) (hs : step s a = some (s', es)) :
    ∃ q', accepts acc q es = some q' ∧ R s' q' := by
  have hI' := inv_step s a s' es hR.inv hm hs
  obtain ⟨hI, hw, hr, hn, hpd⟩ := id hR
  cases a with
  | callLock m t | callTry m t =>
    simp only [step, St.goto] at hs
    split at hs <;> cases hs
    exact ⟨q, rfl, hI', hw, hr, hn, fun u b => by
      by_cases hu : u = t
      · subst hu; simp [Pc.pend]
      · simpa [hu] using hpd u b⟩
  | callUnlock m t =>
    simp only [step] at hs
    split at hs <;> cases hs
    have hpd' : ∀ bb, ∀ u b, (upd s.pc t (.ulAcq m bb) u).pend = some b →
        upd q.pend t (some bb) u = some b := by
      intro bb u b
      by_cases hu : u = t
      · subst hu; simp [Pc.pend]
      · simpa [hu] using hpd u b
    cases m with
    | unique =>
      by_cases hh : s.hold t = some .unique
      · refine ⟨{ q with w := none, pend := upd q.pend t (some true) },
          by simp [accepts, acc, (hw t).2 hh], hI', fun u => ?_, fun u => ?_, hn, ?_⟩
        · by_cases hu : u = t
          · subst hu; simp [hh]
          · have := (hw t).2 hh
            have h2 := hw u
            rw [this] at h2
            simp only [hh, if_true, upd_other _ _ hu, ← h2]
            simp
            exact fun h => hu h.symm
        · by_cases hu : u = t
          · subst hu; simp [hh, hr]
          · simp [hh, hu, hr]
        · simpa [hh] using hpd' true
      · refine ⟨{ q with pend := upd q.pend t (some false) },
          by simp [accepts, acc, (hw t), hh], hI', by simpa [hh] using hw, by simpa [hh] using hr, hn, ?_⟩
        simpa [hh] using hpd' false
    | shared =>
      by_cases hh : s.hold t = some .shared
      · refine ⟨{ q with r := q.r.erase t, pend := upd q.pend t (some true) },
          by simp [accepts, acc, (hr t).2 hh], hI', fun u => ?_, fun u => ?_, hn.erase t, ?_⟩
        · by_cases hu : u = t
          · subst hu; simp [hh, hw]
          · simp [hh, hu, hw]
        · by_cases hu : u = t
          · subst hu; simp [hh, List.Nodup.mem_erase_iff hn]
          · simp [hh, hu, hr, List.Nodup.mem_erase_iff hn]
        · simpa [hh] using hpd' true
      · refine ⟨{ q with pend := upd q.pend t (some false) },
          by simp [accepts, acc, (hr t), hh], hI', by simpa [hh] using hw, by simpa [hh] using hr, hn, ?_⟩
        simpa [hh] using hpd' false
  | run t b =>
    have hlt := hI.loc t
    have hmove : ∀ p, p.pend = none → ∀ u b, (upd s.pc t p u).pend = some b → q.pend u = some b := by
      intro p hp u b
      by_cases hu : u = t
      · subst hu; simp [hp]
      · simpa [hu] using hpd u b
    have hacq : ∀ m, t ∈ s.owners → s.typ = some m → s.hold t = none →
        ∃ q', acc q (.acq m t) = some q' ∧
          (∀ u, q'.w = some u ↔ upd s.hold t (some m) u = some .unique) ∧
          (∀ u, u ∈ q'.r ↔ upd s.hold t (some m) u = some .shared) ∧ q'.r.Nodup ∧
          q'.pend = q.pend := by
      intro m h1 h2 h3
      have := hold_acq hR h1 h2 h3
      cases m with
      | unique =>
        obtain ⟨ha, hb⟩ := this.1 rfl
        refine ⟨{ q with w := some t }, by simp [acc, ha, hb], fun u => ?_, fun u => ?_, hn, rfl⟩
        · by_cases hu : u = t
          · simp [hu]
          · have h4 := hw u
            rw [ha] at h4
            simp only [upd_other _ _ hu, ← h4]
            simp
            exact fun h => hu h.symm
        · by_cases hu : u = t
          · simp [hu, hb]
          · simp [hu, ← hr]
      | shared =>
        obtain ⟨ha, hb⟩ := this.2 rfl
        refine ⟨{ q with r := t :: q.r }, by simp [acc, ha, hb], fun u => ?_, fun u => ?_,
          by simp [hb, hn], rfl⟩
        · by_cases hu : u = t
          · simp [hu, ha]
          · simp [hu, ← hw]
        · by_cases hu : u = t
          · simp [hu]
          · simp [hu, ← hr]
    simp only [step, runStep] at hs
    cases hp : s.pc t
    case lkRet m =>
      simp only [hp] at hs; cases hs
      simp only [Loc, hp] at hlt
      obtain ⟨q', h1, h2, h3, h4, h5⟩ := hacq m hlt.2.1 hlt.2.2.1 hlt.1
      refine ⟨q', by simp [accepts, h1], hI', h2, h3, h4, ?_⟩
      rw [h5]; exact hmove _ rfl
    case tlRet m bb =>
      cases bb with
      | true =>
        simp only [hp] at hs; cases hs
        simp only [Loc, hp] at hlt
        obtain ⟨q', h1, h2, h3, h4, h5⟩ := hacq m hlt.2.1 hlt.2.2.1 hlt.1
        refine ⟨q', by simp [accepts, h1], hI', h2, h3, h4, ?_⟩
        rw [h5]; exact hmove _ rfl
      | false =>
        simp only [hp] at hs; cases hs
        exact ⟨q, by simp [accepts, acc], hI', hw, hr, hn, hmove _ rfl⟩
    case ulRet m ok =>
      simp only [hp] at hs; cases hs
      have := hpd t ok (by simp [hp, Pc.pend])
      refine ⟨{ q with pend := upd q.pend t none }, by simp [accepts, acc, this], hI', hw, hr, hn, ?_⟩
      intro u b
      by_cases hu : u = t
      · subst hu; simp [Pc.pend]
      · simpa [hu] using hpd u b
    case ulTest m hh =>
      simp only [hp] at hs
      simp only [Loc, hp] at hlt
      have hpt := hpd t hh (by simp [hp, Pc.pend])
      have hkeep : ∀ ok, hh = ok → ∀ u b, (upd s.pc t (.ulRet m ok) u).pend = some b →
          q.pend u = some b := by
        rintro ok rfl u b
        by_cases hu : u = t
        · subst hu; simp [Pc.pend, hpt]
        · simpa [hu] using hpd u b
      split at hs
      · cases hs
        refine ⟨q, rfl, hI', hw, hr, hn, hkeep false ?_⟩
        cases hh with
        | false => rfl
        | true => grind
      · cases hs
        have hwk : ∀ s : St, s.wake.hold = s.hold ∧ s.wake.pc = s.pc := by
          intro s; unfold St.wake; repeat' split
          all_goals exact ⟨rfl, rfl⟩
        refine ⟨q, rfl, hI', ?_, ?_, hn, ?_⟩
        · simpa [St.goto, hwk] using hw
        · simpa [St.goto, hwk] using hr
        · simp only [St.goto, hwk]
          refine hkeep true ?_
          cases hh with
          | true => rfl
          | false =>
            exfalso
            obtain ⟨h1, h2, h3⟩ := hlt.2.1 rfl
            cases hho : s.hold t with
            | none => grind
            | some m' => have := h2 m' hho; grind
    case ulAcq m hh =>
      simp only [hp, St.acquire] at hs
      split at hs <;> cases hs
      refine ⟨q, rfl, hI', hw, hr, hn, fun u b => ?_⟩
      by_cases hu : u = t
      · subst hu; have := hpd u b; simpa [hp, Pc.pend] using this
      · simpa [hu] using hpd u b
    all_goals
      simp only [hp, St.acquire, St.goto, St.take] at hs
      (repeat' split at hs) <;> (try cases hs)
      all_goals exact ⟨q, rfl, hI', hw, hr, hn, hmove _ rfl⟩

/-- No wake-up of the execution sees a mixed queue. (Concerns co_shared_mutex.cpp:15-218.) -/
def NoMixedWake (as : List Act) : Prop :=
  ∀ pre a post s1 e1, as = pre ++ a :: post → runs step St.init pre = some (s1, e1) → ¬ MixedWake s1 a

theorem NoMixedWake.sim {as : List Act} (h : NoMixedWake as) {s : St} {es : List Ev}
    (hr : runs step St.init as = some (s, es)) :
    ∃ q, accepts acc Q.init es = some q ∧ R s q := by
  induction as using list_snoc generalizing s es with
  | nil =>
    simp only [runs, Option.some.injEq, Prod.mk.injEq] at hr
    obtain ⟨rfl, rfl⟩ := hr
    exact ⟨Q.init, rfl, R_init⟩
  | snoc as a ih =>
    obtain ⟨s1, e1, e2, h1, h2, rfl⟩ : ∃ s1 e1 e2, runs step St.init as = some (s1, e1) ∧
        step s1 a = some (s, e2) ∧ es = e1 ++ e2 := by
      clear ih h
      generalize St.init = s0 at hr ⊢
      induction as generalizing s0 es with
      | nil =>
        obtain ⟨s', e1, e2, hs, hr2, rfl⟩ := runs_cons hr
        simp only [runs, Option.some.injEq, Prod.mk.injEq] at hr2
        obtain ⟨rfl, rfl⟩ := hr2
        exact ⟨s0, [], e1, rfl, hs, by simp⟩
      | cons b as ih =>
        obtain ⟨s', e1, e2, hs, hr2, rfl⟩ := runs_cons hr
        obtain ⟨s2, f1, f2, hx, hy, rfl⟩ := ih _ hr2
        exact ⟨s2, e1 ++ f1, f2, by simp [runs, hs, hx], hy, by simp⟩
    obtain ⟨q1, hq1, hR1⟩ := ih (fun pre b post s1 e1 he hp =>
      h pre b (post ++ [a]) s1 e1 (by simp [he]) hp) h1
    obtain ⟨q2, hq2, hR2⟩ := step_sim s1 a s e2 q1 hR1 (h as a [] s1 e1 rfl h1) h2
    exact ⟨q2, by rw [accepts_append, hq1]; exact hq2, hR2⟩

/-! ## Waking from an arbitrary queue -/

theorem wake_reader_front (s : St) (u : Tid) (rest : List (Mode × Tid)) (ho : s.owners = [])
    (hq : s.queue = (.shared, u) :: rest) :
    s.wake =
      (let writers := s.queue.filter (fun e => !isShared e)
       let woken := (s.queue.drop writers.length).map Prod.snd
       { s with typ := some .shared, owners := woken.foldl insertOwner [], queue := writers,
                asleep := woken.foldl (fun f v => upd f v false) s.asleep }) := by
  unfold St.wake
  rw [ho, hq]
  simp only [removeIf_eq]
  simp

/-- The queue and sleep flags after a wake-up come from the queue before. -/
theorem wake_sub (s : St) :
    (∀ e, e ∈ s.wake.queue → e ∈ s.queue) ∧
    (∀ u, u ∉ s.queue.map Prod.snd → s.wake.asleep u = s.asleep u ∧
      (u ∈ s.wake.owners → u ∈ s.owners)) := by
  cases ho : s.owners with
  | cons a l => simp [St.wake, ho]
  | nil =>
    cases hq : s.queue with
    | nil => simp [St.wake, ho, hq]
    | cons e rest =>
      obtain ⟨m, v⟩ := e
      cases m with
      | unique =>
        simp only [St.wake, ho, hq]
        refine ⟨fun e he => by simp [he], fun u hu => ?_⟩
        simp only [List.map_cons, List.mem_cons, not_or] at hu
        simp [hu.1, insertOwner]
      | shared =>
        rw [wake_reader_front s v rest ho hq]
        simp only
        refine ⟨fun e he => by rw [hq] at he; exact (List.mem_filter.1 he).1, fun u hu => ?_⟩
        have : u ∉ (s.queue.drop (s.queue.filter (fun e => !isShared e)).length).map Prod.snd := by
          intro h
          rw [← hq] at hu
          obtain ⟨e, he, rfl⟩ := List.mem_map.1 h
          exact hu (List.mem_map_of_mem (f := Prod.snd) (List.mem_of_mem_drop he))
        simp only [foldl_upd_false, this, if_false, mem_foldl_insertOwner, or_false, true_and, imp_self]

/-! ## Termination -/

/-- Number of steps coroutine `t` still has to make, clock permitting. (Concerns co_shared_mutex.cpp:15-218.) -/
def rank (s : St) (t : Tid) : Nat :=
  match s.pc t with
  | .out => 0
  | .lkRet _ | .tlRet _ _ | .ulRet _ _ => 1
  | .tlTest _ | .ulTest _ _ => 2
  | .tlAcq _ | .ulAcq _ _ => 3
  | .lkReacq2 _ => 3
  | .lkParked _ => 4
  | .lkSleep _ => 5
  | .lkLoop _ => if t ∈ s.owners then 2 else 6
  | .lkCheck _ => 7
  | .lkSpin _ => 8
  | .lkAcq _ | .lkFast _ | .lkReacq _ => 9 + (match s.pc t with | .lkAcq _ => 1 | _ => 0)
  | .lkYield _ => 10

theorem wake_pc (s : St) : s.wake.pc = s.pc := by
  unfold St.wake; repeat' split
  all_goals rfl

theorem rank_step (s : St) (t : Tid) (b : Bool) (s' : St) (es : List Ev) (h : Inv s)
    (hs : step s (.run t b) = some (s', es)) :
    (∀ u, u ≠ t → rank s' u = rank s u ∧ (s'.pc u = s.pc u)) ∧
    rank s' t + 1 ≤ rank s t + (if b then 0 else 3) := by
  obtain ⟨hl, h1, -⟩ := h
  have hlt := hl t
  have h1t := h1 t
  simp only [step, runStep] at hs
  cases hpc : s.pc t <;> simp only [hpc, St.acquire, St.goto, St.take] at hs h1t <;>
    simp only [Loc, hpc] at hlt <;>
    (repeat' split at hs) <;> (try cases hs) <;> refine ⟨fun u hu => ?_, ?_⟩
  all_goals first
    | (have h1u := h1 u
       refine ⟨?_, by simp [hu, wake_pc]⟩
       simp only [rank, upd_other _ _ hu, wake_pc]
       first
         | rfl
         | (cases hpu : s.pc u <;> simp only [hpu, Pc.spin] at h1u <;> grind [Pc.spin]))
    | (simp only [rank, hpc, upd_same]; grind)

theorem rank_le (s : St) (t : Tid) : rank s t ≤ 10 := by
  simp only [rank]
  grind

/-- A schedule: which coroutine runs and what the clock says when it looks. (Concerns co_shared_mutex.cpp:15-218.) -/
abbrev Sched := List (Tid × Bool)

/-- The actions of a schedule without any new call. (Concerns co_shared_mutex.cpp:15-218.) -/
def Sched.acts (c : Sched) : List Act := c.map fun p => .run p.1 p.2

/-- How often the clock said that the spin time is not over yet. (Concerns co_shared_mutex.cpp:15-218.) -/
def Sched.spins (c : Sched) : Nat := c.countP fun p => !p.2

theorem bounded (L : List Tid) (hn : L.Nodup) (c : Sched) : ∀ (s s' : St) (es : List Ev), Inv s →
    (∀ pre a post s1 e1, c.acts = pre ++ a :: post → runs step s pre = some (s1, e1) →
      ¬ MixedWake s1 a) →
    (∀ u, u ∉ L → s.pc u = .out) → runs step s c.acts = some (s', es) →
    c.length + sumOver L (rank s') ≤ sumOver L (rank s) + 3 * c.spins := by
  induction c with
  | nil =>
    intro s s' es _ _ _ h
    simp only [Sched.acts, List.map_nil, runs, Option.some.injEq, Prod.mk.injEq] at h
    simp [h.1]
  | cons p c ih =>
    intro s s' es hI hm hL h
    simp only [Sched.acts, List.map_cons] at h
    obtain ⟨s1, e1, e2, h1, h2, rfl⟩ := runs_cons h
    obtain ⟨t, b⟩ := p
    have hr := rank_step s t b s1 e1 hI h1
    have ht : t ∈ L := by
      apply Classical.byContradiction
      intro htL
      have := hL t htL
      simp [step, runStep, this] at h1
    have h3 := ih s1 s' e2 (inv_step _ _ _ _ hI (hm [] _ _ s [] rfl rfl) h1)
      (fun pre a post s2 f2 he hp => hm (.run t b :: pre) a post s2 (e1 ++ f2)
        (by simp [Sched.acts] at he ⊢; exact he) (by simp only at h1; simp [runs, h1, hp])) (fun u hu => by
      have hut : u ≠ t := by rintro rfl; exact hu ht
      rw [(hr.1 u hut).2]; exact hL u hu) h2
    have h4 := sumOver_single (f := rank s1) (g := rank s) hn ht (fun u hu => (hr.1 u hu).1)
    have h5 := hr.2
    simp only [List.length_cons, Sched.spins, List.countP_cons] at h3 ⊢
    cases b <;> simp at h5 ⊢ <;> omega

/-- When no coroutine inside a call can make a step, everybody inside a call is asleep in the queue
behind a client that holds the mutex and is not inside a call. -/
theorem stuck (s : St) (h : Inv s) (hstuck : ∀ t b, step s (.run t b) = none) (t : Tid)
    (ht : s.pc t ≠ .out) :
    ∃ m, s.pc t = .lkParked m ∧ (m, t) ∈ s.queue ∧
      ∃ u, u ∈ s.owners ∧ s.hold u ≠ none ∧ s.pc u = .out := by
  obtain ⟨hl, h1, h2, h3, h4, h5, h6⟩ := h
  have hspin : s.spin = none := by
    cases hsp : s.spin with
    | none => rfl
    | some u =>
      exfalso
      have hu := (h1 u).2 hsp
      have := hstuck u true
      simp only [step, runStep] at this
      cases hpc : s.pc u <;> simp only [hpc, Pc.spin, St.goto, St.take] at this hu <;>
        (repeat' split at this) <;> simp_all
  have key : ∀ v, s.pc v ≠ .out → ∃ m, s.pc v = .lkParked m ∧ s.asleep v = true := by
    intro v hv
    have := hstuck v true
    simp only [step, runStep] at this
    cases hpc : s.pc v <;> simp only [hpc, St.goto, St.acquire, St.take, hspin] at this hv <;>
      (repeat' split at this) <;> simp_all
  obtain ⟨m, hp, ha⟩ := key t ht
  have hlt := hl t
  simp only [Loc, hp] at hlt
  have hmem : (m, t) ∈ s.queue := by grind
  refine ⟨m, hp, hmem, ?_⟩
  cases ho : s.owners with
  | nil => have := h4 ho; simp [this] at hmem
  | cons u l =>
    refine ⟨u, by simp, ?_⟩
    have hlu := hl u
    by_cases hu : s.pc u = .out
    · simp only [Loc, hu] at hlu; grind
    · obtain ⟨m', hp', ha'⟩ := key u hu
      simp only [Loc, hp'] at hlu; grind

end Verif.SharedMutex
