import Verif.Sched.ComposeProps
import Verif.Monitor.Sys

/-! # Whole programs on one scheduling thread (C102)

Coroutines that run given programs over any number of objects (`Verif/Monitor/Sys.lean`) and wait for each other's end, together with the
scheduler of the thread to which (some of) them belong. -/

namespace Verif.Compose
section
open Monitor
variable {σ C K V E W L : Type} [DecidableEq C] [DecidableEq W]

/-- What the coroutines of a program wait for besides the objects: `joins w l`: in local state `l` coroutine `w` waits for the end of these
(`co::wait`, `join`; co_env.cpp:154-187); `over`: has returned; `fin`: has nothing left to do; `who`: the coroutine with that number; `all`:
those that ever wait so. -/
structure Join (W L : Type) where
  joins : W → L → List W
  over : L → Bool
  fin : W → L → Bool
  who : Nat → Option W
  all : List W

/-- `w` waits for the end of another coroutine. (One wait for all of them: the code waits for one after the other, the last wake-up is the
one that counts.) (Concerns co_ctx.cpp:181-207, co_env.cpp:216-314.) -/
def Join.waiting (q : Join W L) (w : W) (ps : W → L) : Bool := (q.joins w (ps w)).any fun u => !q.over (ps u)

/-- What is to be proved of a program (not of the code): `q` describes it. (Concerns co_ctx.cpp:181-207, co_env.cpp:216-314.) -/
structure JoinLaws (p : Prog W L K V) (q : Join W L) : Prop where
  stop : ∀ {w ps}, q.waiting w ps = true → p.next w ps = .stop
  fin : ∀ {w ps}, q.fin w (ps w) = true → p.next w ps = .stop
  over : ∀ {l}, q.over l = true → ∀ w, q.fin w l = true
  last : ∀ {w l}, q.fin w l = true → q.joins w l = []
  all : ∀ {w l}, q.joins w l ≠ [] → w ∈ q.all
  who : ∀ {t w}, q.who t = some w ↔ p.tid w = t

/-- The whole program as one object that makes coroutines wait: each coroutine is inside at most one call (`C22_programs`), and all objects
and ends are one resource. (Concerns co_ctx.cpp:181-207, co_env.cpp:216-314.) -/
def program (o : Nat → Monitor.Obj σ C K V E) (p : Prog W L K V) (q : Join W L) :
    Obj (Sys W L V (Full σ C K V)) (W × Bool) (Nat × Monitor.Ev K V E) where
  step := Sys.step (fullM o) p
  who a := p.tid a.1
  inner _ := true
  busy s t := match q.who t with
    | none => false
    | some w => (s.inside w).isSome || !q.fin w (s.ps w)
  asleep s t := match q.who t with
    | none => false
    | some w => match s.inside w with
      | none => q.waiting w s.ps
      | some (j, _) => (monitor (o j)).asleep (s.obs j) t
  parked s t := match q.who t with
    | none => false
    | some w => match s.inside w with
      | none => true
      | some (j, _) => (monitor (o j)).parked (s.obs j) t
  parks s a := (match s.inside a.1 with
    | none => false
    | some (j, _) => (monitor (o j)).parks (s.obs j) (.run (p.tid a.1) a.2)) ||
    match s.step (fullM o) p a with
    | none => false
    | some (s', _) => (s'.inside a.1).isNone && q.waiting a.1 s'.ps
  wakes s a := (match s.inside a.1 with
    | none => []
    | some (j, _) => (monitor (o j)).wakes (s.obs j) (.run (p.tid a.1) a.2)) ++
    match s.step (fullM o) p a with
    | none => []
    | some (s', _) => (q.all.filter fun u => (s.inside u).isNone && q.waiting u s.ps && !q.waiting u s'.ps).map p.tid

/-- Proof device. (Concerns co_ctx.cpp:181-207, co_env.cpp:216-314.) -/
structure ProgI (o : Nat → Monitor.Obj σ C K V E) (p : Prog W L K V) (q : Join W L) (l0 : W → L) (s0 : Nat → σ)
    (s : Sys W L V (Full σ C K V)) : Prop where
  reach : Reach (Sys.step (fullM o) p) (Sys.initF l0 s0) s
  over : ∀ u, s.inside u ≠ none → q.over (s.ps u) = false

theorem ProgI.obs {o : Nat → Monitor.Obj σ C K V E} {p : Prog W L K V} {q : Join W L} {l0 : W → L} {s0 : Nat → σ}
    {s : Sys W L V (Full σ C K V)} (h : ProgI o p q l0 s0 s) (j : Nat) : MonitorI (o j) (s0 j) (s.obs j) := by
  obtain ⟨as, es, hr⟩ := h.reach
  obtain ⟨bs, hb⟩ := Sys.obj_runs j as _ _ _ hr
  exact ⟨bs, _, hb⟩

theorem ProgI.own {o : Nat → Monitor.Obj σ C K V E} {p : Prog W L K V} {q : Join W L} {l0 : W → L} {s0 : Nat → σ}
    {s : Sys W L V (Full σ C K V)} (h : ProgI o p q l0 s0 s) (j : Nat) (t : Tid) :
    (s.obs j).low.pc t ≠ .idle ↔ ∃ w g, p.tid w = t ∧ s.inside w = some (j, g) := by
  obtain ⟨as, es, hr⟩ := h.reach
  have := Sys.own_reach hr j t
  rw [show s.abs.obs j = (s.obs j).low.abs from rfl, ne_eq, abs_idle] at this
  exact this

/-- Whom a step wakes is inside a call of the object. -/
theorem wakes_busy {o : Monitor.Obj σ C K V E} {s0 : σ} {f : Full σ C K V} (h : MonitorI o s0 f) {t u : Nat} {b : Bool}
    (hw : u ∈ (monitor o).wakes f (.run t b)) : f.low.pc u ≠ .idle ∧ u ≠ t := by
  have h2 : u ≠ t := by
    rintro rfl
    have hI := h.inv
    have h1 := hI.mx.loc u
    have hu := hI.low.loc u
    simp only [monitor] at hw
    split at hw
    · split at hw
      · rename_i c v l fn hp
        simp only [List.mem_singleton] at hw; subst hw
        have hm := (hI.low.m u).1 (by rw [hp]; rfl)
        have hw : f.low.waking c = some u := by rw [waking_of hm]; simp [hp]
        rw [hp] at hu; simp only [LocP] at hu
        exact (hu.2 c).2 hw
      · rename_i c v ws l fn hp
        simp only [List.mem_singleton] at hw; subst hw
        have hm := (hI.low.m u).1 (by rw [hp]; rfl)
        have hw : u ∈ f.low.eff c := by rw [eff_of hm]; simp [hp]
        rw [hp] at hu; simp only [LocP] at hu
        exact (hu.2 c).1 hw
      · cases hw
    · simp only [mutex] at hw
      split at hw
      · rename_i hp
        simp only [Mutex.Loc, hp] at h1
        split at hw
        · have := List.mem_of_mem_take hw
          grind
        · cases hw
      · cases hw
  refine ⟨fun hi => ?_, h2⟩
  have hI := h.inv
  have h1 := hI.mx.loc u
  have hu := hI.low.loc u
  have h3 : f.mx.pc u = .out := by
    rcases hI.link u with ⟨h1, _⟩ | ⟨_, k, h2⟩ | ⟨_, h2⟩
    · exact h1
    · rw [hi] at h2; cases h2
    · rw [hi] at h2; cases h2
  simp only [Mutex.Loc, h3] at h1
  have hc : ∀ c, (f.low.pc u).hasC ≠ some c := by intro c; rw [hi]; simp [Pc.hasC]
  simp only [monitor] at hw
  split at hw
  · split at hw
    · rename_i c v l fn hp
      simp only [List.mem_singleton] at hw; subst hw
      have hm := (hI.low.m t).1 (by rw [hp]; rfl)
      have hw : f.low.waking c = some u := by rw [waking_of hm]; simp [hp]
      obtain ⟨⟨k, hk⟩, _⟩ := hu.woken (hc c) (.inl hw)
      rw [hi] at hk; cases hk
    · rename_i c v ws l fn hp
      simp only [List.mem_singleton] at hw; subst hw
      have hm := (hI.low.m t).1 (by rw [hp]; rfl)
      have hw : u ∈ f.low.eff c := by rw [eff_of hm]; simp [hp]
      obtain ⟨⟨k, hk⟩, _⟩ := hu.woken (hc c) (.inr hw)
      rw [hi] at hk; cases hk
    · cases hw
  · refine h1.2.1 ?_
    simp only [mutex] at hw
    split at hw
    · split at hw
      · exact List.mem_of_mem_take hw
      · cases hw
    · cases hw

/-- Proof device: the four kinds of steps. (Concerns co_ctx.cpp:181-207, co_env.cpp:216-314.) -/
inductive Kind4 (o : Nat → Monitor.Obj σ C K V E) (p : Prog W L K V) (s : Sys W L V (Full σ C K V)) (w : W) (b : Bool) :
    Sys W L V (Full σ C K V) → Prop
  | go (l : L) (hi : s.inside w = none) (hn : p.next w s.ps = .go l) : Kind4 o p s w b { s with ps := setC s.ps w l }
  | call (j : Nat) (k : K) (g : V → L) (f : Full σ C K V) (es : List (Monitor.Ev K V E)) (hi : s.inside w = none)
      (hn : p.next w s.ps = .call j k g) (hf : (s.obs j).step (o j) (.call (p.tid w) k) = some (f, es)) :
      Kind4 o p s w b { s with inside := setC s.inside w (some (j, g)), obs := upd s.obs j f }
  | run (j : Nat) (g : V → L) (f : Full σ C K V) (es : List (Monitor.Ev K V E)) (hi : s.inside w = some (j, g))
      (hf : (s.obs j).step (o j) (.run (p.tid w) b) = some (f, es)) : Kind4 o p s w b { s with obs := upd s.obs j f }
  | ret (j : Nat) (g : V → L) (f : Full σ C K V) (es : List (Monitor.Ev K V E)) (v : V) (hi : s.inside w = some (j, g))
      (hf : (s.obs j).step (o j) (.run (p.tid w) b) = some (f, es)) :
      Kind4 o p s w b { ps := setC s.ps w (g v), inside := setC s.inside w none, obs := upd s.obs j f }

theorem kinds {o : Nat → Monitor.Obj σ C K V E} {p : Prog W L K V} {s s' : Sys W L V (Full σ C K V)} {w : W} {b : Bool}
    {es : List (Nat × Monitor.Ev K V E)} (hs : s.step (fullM o) p (w, b) = some (s', es)) : Kind4 o p s w b s' := by
  simp only [Sys.step] at hs
  cases hin : s.inside w with
  | none =>
    rw [hin] at hs
    simp only at hs
    cases hn : p.next w s.ps with
    | stop => rw [hn] at hs; cases hs
    | go l => rw [hn] at hs; cases hs; exact .go l hin hn
    | call j k g =>
      rw [hn] at hs
      simp only [Option.map_eq_some_iff] at hs
      obtain ⟨⟨f, es'⟩, hf, hs⟩ := hs
      cases hs
      exact .call j k g f es' hin hn hf
  | some q =>
    obtain ⟨j, g⟩ := q
    rw [hin] at hs
    simp only [Option.map_eq_some_iff] at hs
    obtain ⟨⟨f, es'⟩, hf, hs⟩ := hs
    cases hr : retOf es' with
    | none => simp only [hr] at hs; cases hs; exact .run j g f es' hin hf
    | some v => simp only [hr] at hs; cases hs; exact .ret j g f es' v hin hf

theorem prog_inv {o : Nat → Monitor.Obj σ C K V E} {p : Prog W L K V} {q : Join W L} (hq : JoinLaws p q) {l0 : W → L} {s0 : Nat → σ}
    {s s' : Sys W L V (Full σ C K V)} {a : W × Bool} {es : List (Nat × Monitor.Ev K V E)} (h : ProgI o p q l0 s0 s)
    (hs : s.step (fullM o) p a = some (s', es)) : ProgI o p q l0 s0 s' := by
  obtain ⟨w, b⟩ := a
  refine ⟨?_, fun u hu => ?_⟩
  · obtain ⟨as, tr, hr⟩ := h.reach
    exact ⟨as ++ [(w, b)], tr ++ es, runs_append hr (by simp [runs, hs])⟩
  · have hO := h.over u
    cases kinds hs with
    | go l hi hn =>
      by_cases hw : u = w
      · subst hw; exact absurd hi hu
      · simpa [setC_other _ _ hw] using hO hu
    | call j k g f es' hi hn hf =>
      by_cases hw : u = w
      · subst hw
        cases ho : q.over (s.ps u) with
        | false => rfl
        | true => have := hq.fin (hq.over ho u); rw [hn] at this; cases this
      · exact hO (by simpa [setC_other _ _ hw] using hu)
    | run j g f es' hi hf => exact hO hu
    | ret j g f es' v hi hf =>
      by_cases hw : u = w
      · subst hw; simp at hu
      · simp only [setC_other _ _ hw] at hu ⊢
        exact hO hu

/-- Nobody begins to wait for an end because of a step of somebody else. -/
theorem waiting_other {o : Nat → Monitor.Obj σ C K V E} {p : Prog W L K V} {q : Join W L} (hq : JoinLaws p q) {l0 : W → L}
    {s0 : Nat → σ} {s s' : Sys W L V (Full σ C K V)} {w : W} {b : Bool} {es : List (Nat × Monitor.Ev K V E)}
    (h : ProgI o p q l0 s0 s) (hs : s.step (fullM o) p (w, b) = some (s', es)) {u : W} (hu : u ≠ w)
    (hw : q.waiting u s'.ps = true) : q.waiting u s.ps = true := by
  have hov : q.over (s.ps w) = false := by
    cases ho : q.over (s.ps w) with
    | false => rfl
    | true =>
      exfalso
      have hst := hq.fin (hq.over ho w)
      have hn : s.inside w = none := by
        cases hi : s.inside w with
        | none => rfl
        | some x => have := h.over w (by rw [hi]; simp); rw [ho] at this; cases this
      simp [Sys.step, hn, hst] at hs
  have hps : ∀ v, v ≠ w → s'.ps v = s.ps v := by
    intro v hv
    cases kinds hs <;> simp [setC_other _ _ hv]
  simp only [Join.waiting, List.any_eq_true, Bool.not_eq_true', hps u hu] at hw ⊢
  obtain ⟨v, h1, h2⟩ := hw
  refine ⟨v, h1, ?_⟩
  by_cases hv : v = w
  · rw [hv]; exact hov
  · rw [← hps v hv]; exact h2

theorem mon_sleep {o : Monitor.Obj σ C K V E} {s0 : σ} {f f' : Full σ C K V} {a : FAct K} {es : List (Monitor.Ev K V E)}
    (h : MonitorI o s0 f) (hs : f.step o a = some (f', es)) (t : Nat) :
    (monitor o).asleep f' t = true ↔ ((monitor o).asleep f t = true ∨ (t = (monitor o).who a ∧ (monitor o).parks f a = true)) ∧
      t ∉ (monitor o).wakes f a := (monitor_laws o s0).sleep (a := a) h hs t

theorem mon_parked {o : Monitor.Obj σ C K V E} {s0 : σ} {f f' : Full σ C K V} {a : FAct K} {es : List (Monitor.Ev K V E)}
    (h : MonitorI o s0 f) (hs : f.step o a = some (f', es)) (t : Nat) (ht : t ≠ (monitor o).who a) :
    (monitor o).parked f' t = (monitor o).parked f t := ((monitor_laws o s0).other (a := a) h hs t ht).2

theorem asleep_busy {o : Monitor.Obj σ C K V E} {s0 : σ} {f : Full σ C K V} (h : MonitorI o s0 f) {t : Nat} (hi : f.low.pc t = .idle) :
    (monitor o).asleep f t = false := by
  cases ha : (monitor o).asleep f t with
  | false => rfl
  | true =>
    have := (monitor_laws o s0).stay h ha
    simp [monitor, hi] at this

theorem prog_sleep {o : Nat → Monitor.Obj σ C K V E} {p : Prog W L K V} {q : Join W L} (hq : JoinLaws p q) {l0 : W → L} {s0 : Nat → σ}
    {s s' : Sys W L V (Full σ C K V)} {a : W × Bool} {es : List (Nat × Monitor.Ev K V E)} (h : ProgI o p q l0 s0 s)
    (hs : s.step (fullM o) p a = some (s', es)) (t : Nat) :
    (program o p q).asleep s' t = true ↔ ((program o p q).asleep s t = true ∨
      (t = (program o p q).who a ∧ (program o p q).parks s a = true)) ∧ t ∉ (program o p q).wakes s a := by
  obtain ⟨w, b⟩ := a
  have h' := prog_inv hq h hs
  have hk := kinds hs
  have hwo := fun u hu hw => waiting_other hq h hs (u := u) hu hw
  simp only [program, hs]
  cases hw : q.who t with
  | none =>
    simp only [Bool.false_eq_true, false_or, false_iff, not_and]
    rintro ⟨rfl, -⟩
    rw [hq.who.2 rfl] at hw; cases hw
  | some u =>
    have ht := hq.who.1 hw
    have hinj : ∀ v, p.tid v = t → v = u := fun v hv => p.inj _ _ (hv.trans ht.symm)
    have hmem : ∀ l : List W, t ∈ l.map p.tid ↔ u ∈ l := by
      intro l
      simp only [List.mem_map]
      exact ⟨fun ⟨v, h1, h2⟩ => hinj v h2 ▸ h1, fun h1 => ⟨u, h1, ht⟩⟩
    -- whom the object wakes is inside a call of it
    have hobj : ∀ j g, s.inside w = some (j, g) → t ∈ (monitor (o j)).wakes (s.obs j) (.run (p.tid w) b) →
        (∃ g, s.inside u = some (j, g)) ∧ u ≠ w := by
      intro j g _ hm
      obtain ⟨h1, h2⟩ := wakes_busy (h.obs j) hm
      obtain ⟨v, g', h3, h4⟩ := (h.own j t).1 h1
      rw [hinj v h3] at h4
      exact ⟨⟨g', h4⟩, by rintro rfl; exact h2 ht.symm⟩
    simp only [List.mem_append, hmem, List.mem_filter, Bool.and_eq_true, Bool.not_eq_true']
    by_cases huw : u = w
    · subst huw
      subst ht
      cases hk with
      | go l hi hn =>
        have hnw : q.waiting u s.ps = false := by
          cases hx : q.waiting u s.ps with
          | false => rfl
          | true => have := hq.stop hx; rw [hn] at this; cases this
        simp [hi, hnw]
      | call j k g f es' hi hn hf =>
        have hnw : q.waiting u s.ps = false := by
          cases hx : q.waiting u s.ps with
          | false => rfl
          | true => have := hq.stop hx; rw [hn] at this; cases this
        have hidle : (s.obs j).low.pc (p.tid u) = .idle := by
          simp only [Full.step] at hf
          split at hf
          · assumption
          · cases hf
        have := mon_sleep (h.obs j) hf (p.tid u)
        rw [asleep_busy (h.obs j) hidle] at this
        simp only [setC_same, upd_same, hi, hnw]
        rw [this]
        simp [monitor]
      | run j g f es' hi hf =>
        have := mon_sleep (h.obs j) hf (p.tid u)
        simp only [hi, upd_same]
        rw [this]
        simp [monitor]
      | ret j g f es' v hi hf =>
        have hidle : f.low.pc (p.tid u) = .idle := by
          by_cases hx : f.low.pc (p.tid u) = .idle
          · exact hx
          · exfalso
            obtain ⟨v', g', h3, h4⟩ := (h'.own j (p.tid u)).1 (by simpa using hx)
            rw [hinj v' h3] at h4
            simp at h4
        have hx := mon_sleep (h.obs j) hf (p.tid u)
        have hmon : MonitorI (o j) (s0 j) f := by simpa using h'.obs j
        rw [asleep_busy hmon hidle] at hx
        have hnot : p.tid u ∉ (monitor (o j)).wakes (s.obs j) (.run (p.tid u) b) := fun hm => (hobj j g hi hm).2 rfl
        simp only [hi, setC_same]
        simp [monitor] at hx hnot ⊢
        grind
    · have hne : t ≠ p.tid w := fun hh => huw (hinj w hh.symm).symm
      have hin : s'.inside u = s.inside u := by
        cases hk <;> simp [setC_other _ _ huw]
      have hps : s'.ps u = s.ps u := by
        cases hk <;> simp [setC_other _ _ huw]
      simp only [hne, false_and, or_false, hin]
      cases hi : s.inside u with
      | none =>
        simp only [Option.isNone_none, true_and, not_or]
        have h1 : t ∉ (match s.inside w with
            | none => []
            | some (j, _) => (monitor (o j)).wakes (s.obs j) (.run (p.tid w) b)) := by
          intro hm
          cases hiw : s.inside w with
          | none => rw [hiw] at hm; cases hm
          | some x =>
            obtain ⟨j, g⟩ := x
            rw [hiw] at hm
            obtain ⟨⟨g', h2⟩, _⟩ := hobj j g hiw hm
            rw [hi] at h2; cases h2
        have h2 := hwo u huw
        have h3 : q.waiting u s.ps = true → u ∈ q.all := fun hx => hq.all (l := s.ps u) (by
          intro hnil; simp [Join.waiting, hnil] at hx)
        constructor
        · intro h4
          exact ⟨h2 h4, h1, fun h5 => by simp [h4] at h5⟩
        · rintro ⟨h4, -, h5⟩
          cases hx : q.waiting u s'.ps with
          | true => rfl
          | false => exact absurd ⟨h3 h4, h4, hx⟩ h5
      | some x =>
        obtain ⟨i, g'⟩ := x
        simp only [Option.isNone_some, Bool.false_eq_true, false_and, and_false, or_false]
        cases hk with
        | go l hi' hn => simp [hi']
        | call j k g f es' hi' hn hf =>
          by_cases hij : i = j
          · subst hij
            have := mon_sleep (h.obs i) hf t
            simp only [upd_same, hi']
            rw [this]
            simp [monitor]
          · simp [hij, hi']
        | run j g f es' hi' hf | ret j g f es' v hi' hf =>
          by_cases hij : i = j
          · subst hij
            have := mon_sleep (h.obs i) hf t
            simp only [upd_same, hi']
            rw [this]
            simp [monitor, hne]
          · have hnot : t ∉ (monitor (o j)).wakes (s.obs j) (.run (p.tid w) b) := by
              intro hm
              obtain ⟨⟨g2, h2⟩, _⟩ := hobj j g hi' hm
              rw [hi] at h2; cases h2; exact hij rfl
            simp [hij, hi', hnot]

theorem program_laws {o : Nat → Monitor.Obj σ C K V E} {p : Prog W L K V} {q : Join W L} (hq : JoinLaws p q) (l0 : W → L)
    (s0 : Nat → σ) : Laws (program o p q) (ProgI o p q l0 s0) where
  inv h hs := prog_inv hq h hs
  sleep h hs t := prog_sleep hq h hs t
  other {s a s' es} h hs t ht := by
    obtain ⟨w, b⟩ := a
    have hk := kinds hs
    simp only [program] at ht ⊢
    cases hw : q.who t with
    | none => simp
    | some u =>
      have huw : u ≠ w := by rintro rfl; exact ht (hq.who.1 hw).symm
      have hin : s'.inside u = s.inside u := by
        cases hk <;> simp [setC_other _ _ huw]
      have hps : s'.ps u = s.ps u := by
        cases hk <;> simp [setC_other _ _ huw]
      simp only [hin, hps, true_and]
      cases hi : s.inside u with
      | none => rfl
      | some x =>
        obtain ⟨i, g'⟩ := x
        simp only
        cases hk with
        | go l hi' hn => rfl
        | call j k g f es' hi' hn hf | run j g f es' hi' hf | ret j g f es' v hi' hf =>
          by_cases hij : i = j
          · subst hij
            simp only [upd_same]
            exact mon_parked (h.obs i) hf t ht
          · simp [hij]
  stay {s t} h hs := by
    simp only [program] at hs ⊢
    cases hw : q.who t with
    | none => simp [hw] at hs
    | some u =>
      simp only [hw] at hs
      cases hi : s.inside u with
      | some x => simp [hi]
      | none =>
        simp only [hi] at hs
        cases hf : q.fin u (s.ps u) with
        | false => simp [hf]
        | true => simp [Join.waiting, hq.last hf] at hs
  blocked {s a} h hp hs := by
    obtain ⟨w, b⟩ := a
    simp only [program, hq.who.2 rfl] at hp hs ⊢
    simp only [Sys.step]
    cases hi : s.inside w with
    | none =>
      simp only [hi] at hs
      simp [hq.stop hs]
    | some x =>
      obtain ⟨j, g⟩ := x
      simp only [hi] at hp hs
      have := (monitor_laws (o j) (s0 j)).blocked (a := .run (p.tid w) b) (h.obs j) hp hs
      have : (s.obs j).step (o j) (.run (p.tid w) b) = none := this
      simp [fullM, this]
  outside {s a} h hb _ := by
    obtain ⟨w, b⟩ := a
    simp only [program, hq.who.2 rfl, Bool.or_eq_false_iff, Option.isSome_eq_false_iff, Option.isNone_iff_eq_none,
      Bool.not_eq_false'] at hb ⊢
    simp [Sys.step, hb.1, hq.fin hb.2]

theorem program_init {o : Nat → Monitor.Obj σ C K V E} {p : Prog W L K V} {q : Join W L} (l0 : W → L) (s0 : Nat → σ) :
    ProgI o p q l0 s0 (Sys.initF l0 s0) := ⟨⟨[], [], rfl⟩, fun u hu => absurd rfl hu⟩

end
end Verif.Compose
