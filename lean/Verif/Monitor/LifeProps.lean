import Verif.Monitor.Life
import Verif.Monitor.FullObjs
import Mathlib.Data.List.Induction

/-! # An object may be destroyed when its last call is over (C105) -/

namespace Verif.Monitor
section
variable {σ C K V E : Type} [DecidableEq C]

/-! ## Objects that end -/

/-- An object and whether it was destroyed. `ub`: it was used (a coroutine inside a call made a step, a call began, it was destroyed again)
after that. The destructors of co_latch, co_counting_semaphore, co_mutex and co_condition_variable are the implicit ones, that of co_wait_group
is a `wait()` followed by it (co_wait_group.cpp:14-17). Simplified: every step of a coroutine inside a call counts as a use, whether or not
it accesses the object. -/
structure Life (σ C K V : Type) where
  f : Full σ C K V
  dead : Bool
  ub : Bool

/-- Steps: a use of the object (as in `Full`), its destruction. (Concerns co_wait_group.cpp:7-36, co_latch.cpp:7-46.) -/
inductive LAct (K : Type)
  | use (a : FAct K)
  | destroy

/-- Events. (Concerns co_wait_group.cpp:7-36, co_latch.cpp:7-46.) -/
inductive LEv (K V E : Type)
  | ev (x : Ev K V E)
  | destroy

/-- A new object. (Concerns co_wait_group.cpp:7-36, co_latch.cpp:7-46.) -/
def Life.init (s0 : σ) : Life σ C K V := ⟨Full.init s0, false, false⟩

/-- One step. What a use after the destruction does is not known; that it happened is recorded. (Concerns co_wait_group.cpp:7-36, co_latch.cpp:7-46.) -/
def Life.step (o : Obj σ C K V E) (s : Life σ C K V) : LAct K → Option (Life σ C K V × List (LEv K V E))
  | .use a => (s.f.step o a).map fun r => (⟨r.1, s.dead, s.ub || s.dead⟩, r.2.map .ev)
  | .destroy => some (⟨s.f, true, s.ub || s.dead⟩, [.destroy])

/-- The calls, events and returns of a trace. (Concerns co_wait_group.cpp:7-36, co_latch.cpp:7-46.) -/
def uses (es : List (LEv K V E)) : List (Ev K V E) := es.filterMap fun e => match e with | .ev x => some x | .destroy => none

/-- How careful who destroys the object is: `enough` of the trace has happened; calls that may be still on their way back are of the kind
`own`; later on nobody calls anything else, and nobody destroys it again. (Concerns co_wait_group.cpp:7-36, co_latch.cpp:7-46.) -/
def Careful (own : K → Bool) (enough : List (Ev K V E) → Prop) (es : List (LEv K V E)) : Prop :=
  ∀ e1 e2, es = e1 ++ .destroy :: e2 → enough (uses e1) ∧ (∀ t k, opens (uses e1) t = some k → own k = true) ∧
    (∀ t k, .ev (.call t k) ∈ e2 → own k = true) ∧ .destroy ∉ e2

theorem uses_append (es fs : List (LEv K V E)) : uses (es ++ fs) = uses es ++ uses fs := by simp [uses]

theorem uses_map (es : List (Ev K V E)) : uses (es.map LEv.ev) = es := by
  induction es with
  | nil => rfl
  | cons e es ih => simp only [List.map_cons, uses, List.filterMap_cons] at ih ⊢; rw [ih]

/-- Nobody is inside a call: only a new call can happen. -/
theorem idle_run {o : Obj σ C K V E} {f : Full σ C K V} (hI : f.Inv) (h : ∀ t, f.low.pc t = .idle) (t : Tid) (b : Bool) :
    f.step o (.run t b) = none := by
  have hout : f.mx.pc t = .out := by
    rcases hI.link t with ⟨h1, _⟩ | ⟨_, k, h2⟩ | ⟨_, h2⟩
    · exact h1
    · rw [h] at h2; cases h2
    · rw [h] at h2; cases h2
  simp [Full.step, Full.runStep, hout, h, Pc.unlocking, Low.runStep]

/-- General form: if calls of total weight `W` are made, those of the kind `own` do nothing but that, and whoever destroys the object has
seen that all of it has happened, then nobody uses the object any more. -/
theorem Plan.safe {o : Obj σ C K V E} {s0 : σ} {W : Nat} {w : K → Nat} {lw : E → Nat} {J : σ → Nat → Prop} (P : Plan o s0 W w lw J)
    {own : K → Bool} (hp1 : ∀ k, own k = true → 0 < w k) (hp2 : ∀ t k s k', (o.body t k s).fin.todo = some k' → own k' = own k)
    {enough : List (Ev K V E) → Prop} (h0 : ¬ enough [])
    (hE1 : ∀ as s es, runs (Low.step o) (Low.init s0) as = some (s, es) → called w es ≤ W → enough es → W ≤ happened lw es)
    (hE2 : ∀ es e, (∀ t v, Ev.ret t v ∉ e) → enough (es ++ e) → enough es)
    {as : List (LAct K)} {s : Life σ C K V} {es : List (LEv K V E)} (h : runs (Life.step o) (Life.init s0) as = some (s, es))
    (hw : called w (uses es) ≤ W) (hc : Careful own enough es) : s.ub = false := by
  suffices key : ∀ (as bs : List (LAct K)) (x y : Life σ C K V) (d es : List (LEv K V E)),
      (x.ub = false ∧ (∃ cs, runs (Full.step o) (Full.init s0) cs = some (x.f, uses d)) ∧
        (x.dead = true → (∀ t, x.f.low.pc t = .idle) ∧ W ≤ called w (uses d) ∧ ∃ d1, d = d1 ++ [.destroy])) →
      runs (Life.step o) x as = some (y, es) → called w (uses (d ++ es)) ≤ W → Careful own enough (d ++ es) → y.ub = false by
    have := key as [] _ s [] es ⟨rfl, ⟨[], rfl⟩, fun h => by cases h⟩ h
    simpa using this hw hc
  intro as
  induction as with
  | nil =>
    intro bs x y d es hx h _ _
    simp only [runs, Option.some.injEq, Prod.mk.injEq] at h
    rw [← h.1]; exact hx.1
  | cons a as ih =>
    intro bs x y d es hx h hw hc
    obtain ⟨x1, e1, e2, h1, h2, rfl⟩ := runs_cons h
    obtain ⟨hu, ⟨cs, hcs⟩, hd⟩ := hx
    refine ih [] x1 y (d ++ e1) e2 ?_ h2 (by rwa [List.append_assoc]) (by rwa [List.append_assoc])
    cases a with
    | use a =>
      simp only [Life.step, Option.map_eq_some_iff, Prod.mk.injEq] at h1
      obtain ⟨r, hr, rfl, rfl⟩ := h1
      have hr1 : runs (Full.step o) x.f [a] = some (r.1, r.2) := by simp [runs, hr]
      cases hdd : x.dead with
      | false =>
        refine ⟨by simp [hu], ⟨cs ++ [a], ?_⟩, fun h => by simp at h⟩
        rw [uses_append, uses_map]
        exact runs_append hcs hr1
      | true =>
        exfalso
        obtain ⟨q1, q2, d1, rfl⟩ := hd hdd
        cases a with
        | run t b =>
          rw [idle_run (Full.sim_init hcs).1 q1] at hr
          cases hr
        | call t k =>
          simp only [Full.step] at hr
          split at hr <;> cases hr
          have := (hc d1 ([.ev (.call t k)] ++ e2) (by simp)).2.2.1 t k (by simp)
          have := hp1 k this
          simp only [uses_append, called_append, List.map_cons, List.map_nil] at hw q2
          have hx : called w (uses [LEv.ev (Ev.call t k)] : List (Ev K V E)) = w k := by simp [called, uses]
          rw [hx] at hw
          omega
    | destroy =>
      simp only [Life.step, Option.some.injEq, Prod.mk.injEq] at h1
      obtain ⟨rfl, rfl⟩ := h1
      have hdd : x.dead = false := by
        cases hdd : x.dead with
        | false => rfl
        | true =>
          exfalso
          obtain ⟨-, -, d1, rfl⟩ := hd hdd
          exact (hc d1 ([.destroy] ++ e2) (by simp)).2.2.2 (by simp)
      obtain ⟨q1, q2, -, -⟩ := hc d e2 (by simp)
      obtain ⟨hI, ls, hls⟩ := Full.sim_init hcs
      have hwd : called w (uses d) ≤ W := by
        rw [uses_append, called_append] at hw
        omega
      refine ⟨by simp [hu, hdd], ⟨cs, ?_⟩, fun _ => ⟨fun t => ?_, ?_, d, rfl⟩⟩
      · rw [uses_append]; simpa [uses] using hcs
      · rw [← opens_idle hls t]
        cases ho : opens (uses d) t with
        | none => rfl
        | some k =>
          have := P.over hp1 hp2 h0 hE1 hE2 hls hwd q1 ho
          rw [q2 t k ho] at this
          cases this
      · have h1 := hE1 _ _ _ hls hwd q1
        have h2 := (P.bal hls hwd).1.le
        rw [uses_append, called_append]
        simp only [called] at h1 h2 ⊢
        omega

/-- Proof device: a call in `p` returns only when all is done. -/
theorem Plan.passed {o : Obj σ C K V E} {s0 : σ} {W : Nat} {w : K → Nat} {lw : E → Nat} {J : σ → Nat → Prop} (P : Plan o s0 W w lw J)
    {p : K → V → Bool} (hq1 : ∀ t k s c v, J s c → c + w k ≤ W → (o.body t k s).fin.result = some v → p k v = true →
      W ≤ c + ((o.body t k s).ev.map lw).sum) (hq2 : ∀ t k s k', (o.body t k s).fin.todo = some k' → p k' = p k)
    {as : List (Act K)} {s : Low σ C K V} {es : List (Ev K V E)} (h : runs (Low.step o) (Low.init s0) as = some (s, es))
    (hw : called w es ≤ W) (he : 0 < rets p es) : W ≤ happened lw es := by
  have hmono : ∀ es fs : List (Ev K V E), happened lw es ≤ happened lw (es ++ fs) := fun es fs => by rw [happened_append]; omega
  refine (low_inv (fun s es => called w es ≤ W → (∀ t k v, opens es t = some k → (s.pc t).result = some v → p k v = true →
    W ≤ happened lw es) ∧ (0 < rets p es → W ≤ happened lw es)) (fun _ => ⟨fun t k v h => by simp [opens] at h, fun h => by simp [rets] at h⟩)
    ?_ h hw).2 he
  intro bs s a s' e1 es hr hInv hI hs hw
  have hw0 : called w es ≤ W := by rw [called_append] at hw; omega
  obtain ⟨i1, i2⟩ := hI hw0
  rcases low_cases hs with ⟨t, j, hp, -, h3, rfl⟩ | ⟨t, j, hp, -, h3, rfl⟩ | ⟨t, v, hp, -, h3, rfl⟩ | ⟨t, q, rfl, -, h3, h4, h5, h6, h7⟩
  · refine ⟨fun u k v ho hv hpv => ?_, fun h => le_trans (i2 (by rw [rets_snoc] at h; simpa using h)) (hmono _ _)⟩
    rw [opens_append] at ho
    by_cases hu : u = t
    · subst hu; rw [h3] at hv; simp [Pc.result] at hv
    · simp [note, hu] at ho
      rw [h3, upd_other _ _ hu] at hv
      exact le_trans (i1 u k v ho hv hpv) (hmono _ _)
  · refine ⟨fun u k v ho hv hpv => ?_, fun h => le_trans (i2 (by rwa [rets_append_lin] at h)) (hmono _ _)⟩
    rw [opens_lin] at ho
    by_cases hu : u = t
    · subst hu
      rw [h3, upd_same] at hv
      obtain ⟨hb, hJ⟩ := P.bal hr hw0
      have hle := hb.le_add u
      have hpe : owed w (s.pc u).todo = w j := by rw [hp]; rfl
      simp only [hpe] at hle
      have hpj : p j = p k := todo_class p hq2 hr ho (by rw [hp]; rfl)
      have := hq1 u j s.sh _ v hJ (by omega) hv (by rw [hpj]; exact hpv)
      rw [happened_append]
      simpa [happened, Function.comp_def] using this
    · rw [h3, upd_other _ _ hu] at hv
      exact le_trans (i1 u k v ho hv hpv) (hmono _ _)
  · refine ⟨fun u k v' ho hv hpv => ?_, fun h => ?_⟩
    · rw [opens_append] at ho
      by_cases hu : u = t
      · subst hu; simp [note] at ho
      · simp [note, hu] at ho
        rw [h3, upd_other _ _ hu] at hv
        exact le_trans (i1 u k v' ho hv hpv) (hmono _ _)
    · rw [rets_snoc] at h
      refine le_trans ?_ (hmono _ _)
      by_cases hz : 0 < rets p es
      · exact i2 hz
      · cases ho : opens es t with
        | none => simp [ho] at h; omega
        | some k =>
          cases hpv : p k v with
          | true => exact i1 t k v ho (by rw [hp]; rfl) hpv
          | false => simp [ho, hpv] at h; omega
  · rw [List.append_nil]
    refine ⟨fun u k v ho hv hpv => ?_, i2⟩
    by_cases hu : u = t
    · subst hu; rw [h3, upd_same, h5] at hv; exact i1 u k v ho hv hpv
    · rw [h3, upd_other _ _ hu] at hv; exact i1 u k v ho hv hpv

theorem rets_no_ret (p : K → V → Bool) (n : Nat) (es e : List (Ev K V E)) (h : ∀ t v, Ev.ret t v ∉ e) (hp : n ≤ rets p (es ++ e)) :
    n ≤ rets p es := by
  induction e using List.reverseRecOn with
  | nil => simpa using hp
  | append_singleton e x ih =>
    refine ih (fun t v hm => h t v (by simp [hm])) ?_
    rw [← List.append_assoc, rets_snoc] at hp
    cases x with
    | ret t v => exact absurd (by simp) (h t v)
    | _ => simpa using hp

/-! ## co_wait_group -/

/-- **C105 for co_wait_group**: if `done()` is called at most `count` times, the group is destroyed after a `wait()` has returned, no
`wait()` is on its way and none is called later, then nobody uses the group after its destruction - not even the `done()` that woke the
waiter. -/
theorem C105_wait_group {W : Nat} {as : List (LAct WaitGroup.Op)} {s : Life Nat Unit WaitGroup.Op WaitGroup.Res}
    {es : List (LEv _ _ _)} (h : runs (Life.step (WaitGroup.obj W)) (Life.init 0) as = some (s, es))
    (hn : called (fun k => if k = .done then 1 else 0) (uses es) ≤ W)
    (hc : Careful (· == .done) (fun es => 1 ≤ rets (fun k _ => k == .wait) es) es) : s.ub = false := by
  have P : Plan (WaitGroup.obj W) 0 W (fun k => if k = .done then 1 else 0) (fun e => match e with | .fin _ => 1 | _ => 0) (· = ·) := by
    refine ⟨rfl, fun t k s c hJ hw => ?_⟩
    subst hJ
    cases k <;> simp only [WaitGroup.obj]
    · simp [owed, Fin.todo]
    · split <;> simp [owed, Fin.todo]
  refine P.safe (own := (· == .done)) (by simp) ?_ (by simp [rets]) ?_ (fun es e => rets_no_ret _ 1 es e) h hn hc
  · intro t k s k' hk
    cases k <;> simp only [WaitGroup.obj] at hk
    · simp [Fin.todo] at hk
    · split at hk <;> simp [Fin.todo] at hk
      subst hk; rfl
  · intro as s es hr hw he
    refine P.passed ?_ ?_ hr hw he
    · intro t k s c v hJ hw hv hp
      subst hJ
      simp at hp
      subst hp
      simp only [WaitGroup.obj] at hv ⊢
      split at hv <;> simp [Fin.result] at hv
      rename_i hlt
      simp [hlt]; omega
    · intro t k s k' hk
      cases k <;> simp only [WaitGroup.obj] at hk
      · simp [Fin.todo] at hk
      · split at hk <;> simp [Fin.todo] at hk
        subst hk; rfl

/-! ## co_latch -/

/-- The weight of a call: what it counts down. (Concerns co_wait_group.cpp:7-36, co_latch.cpp:7-46.) -/
def latchWeight : Latch.Op → Nat
  | .countDown n | .arriveWait n => n
  | _ => 0

/-- Calls that do nothing but count down. (Concerns co_wait_group.cpp:7-36, co_latch.cpp:7-46.) -/
def justCounts : Latch.Op → Bool
  | .countDown n => decide (0 < n)
  | _ => false

/-- Calls that have seen the count at 0: `wait` and `arrive_and_wait` that returned, `try_wait` that returned true. (Concerns co_wait_group.cpp:7-36, co_latch.cpp:7-46.) -/
def sawZero : Latch.Op → Latch.Res → Bool
  | .wait, _ | .arriveWait _, _ => true
  | .tryWait, r => r == .tried true
  | _, _ => false

/-- **C105 for co_latch**: if not more is counted down than expected, the latch is destroyed after a `wait()` or `arrive_and_wait()` has
returned or a `try_wait()` has returned true, and at that time nobody is inside a call other than `count_down` and nobody calls anything
else later, then nobody uses the latch after its destruction - not even the `count_down` that opened it. -/
theorem C105_latch {e : Nat} {as : List (LAct Latch.Op)} {s : Life Int Unit Latch.Op Latch.Res}
    {es : List (LEv _ _ _)} (h : runs (Life.step Latch.obj) (Life.init (e : Int)) as = some (s, es))
    (hn : called latchWeight (uses es) ≤ e) (hc : Careful justCounts (fun es => 1 ≤ rets sawZero es) es) : s.ub = false := by
  have P : Plan Latch.obj (e : Int) e latchWeight (fun x => match x with | .down _ n => n | _ => 0) (fun x c => x = (e : Int) - c) := by
    refine ⟨by simp, fun t k s c hJ hw => ?_⟩
    subst hJ
    cases k with
    | countDown n =>
      have : ¬ ((e : Int) - c < n) := by simp only [latchWeight] at hw; omega
      simp only [Latch.obj, this, if_false, latchWeight, Fin.todo, owed, Option.elim]
      constructor <;> simp
      omega
    | arriveWait n =>
      have : ¬ ((e : Int) - c < n) := by simp only [latchWeight] at hw; omega
      simp only [Latch.obj, this, if_false, latchWeight, Fin.todo, owed, Option.elim]
      constructor <;> simp
      omega
    | tryWait => simp [Latch.obj, latchWeight, Fin.todo, owed]
    | wait =>
      simp only [Latch.obj]
      split <;> simp [latchWeight, Fin.todo, owed]
  refine P.safe (own := justCounts) ?_ ?_ (by simp [rets]) ?_ (fun es e => rets_no_ret _ 1 es e) h hn hc
  · intro k hk
    cases k <;> simp_all [justCounts, latchWeight]
  · intro t k s k' hk
    cases k <;> simp only [Latch.obj] at hk <;> (try split at hk) <;> simp [Fin.todo] at hk <;> subst hk <;> rfl
  · intro as s es hr hw he
    refine P.passed ?_ ?_ hr hw he
    · intro t k s c v hJ hw hv hp
      subst hJ
      cases k with
      | countDown n => simp [sawZero] at hp
      | arriveWait n =>
        have : ¬ ((e : Int) - c < n) := by simp only [latchWeight] at hw; omega
        simp [Latch.obj, this, Fin.result] at hv
      | tryWait =>
        simp only [Latch.obj, Fin.result, Option.some.injEq] at hv
        subst hv
        simp [sawZero] at hp
        simp [Latch.obj]; omega
      | wait =>
        simp only [Latch.obj] at hv ⊢
        split at hv <;> simp [Fin.result] at hv
        rename_i hlt
        simp [hlt]; omega
    · intro t k s k' hk
      cases k <;> simp only [Latch.obj] at hk <;> (try split at hk) <;> simp [Fin.todo] at hk <;> subst hk <;> rfl

/-! ## co_counting_semaphore -/

/-- The weight of a call: what it gives back. (Concerns co_wait_group.cpp:7-36, co_latch.cpp:7-46.) -/
def semWeight : Semaphore.Op → Nat
  | .release n => n + 1
  | _ => 0

/-- Calls of `release`. (Concerns co_wait_group.cpp:7-36, co_latch.cpp:7-46.) -/
def isRelease : Semaphore.Op → Bool
  | .release _ => true
  | _ => false

/-- Calls that have taken a permit: `acquire` that returned, `try_acquire` that returned true. (Concerns co_wait_group.cpp:7-36, co_latch.cpp:7-46.) -/
def tookOne : Semaphore.Op → Bool → Bool
  | .acquire, _ => true
  | .tryAcquire, b => b
  | _, _ => false

theorem given_happened (es : Semaphore.Trace) : happened (fun x => match x with | .gave _ => 1 | _ => 0) es = Semaphore.given es := by
  induction es with
  | nil => rfl
  | cons e es ih =>
    rw [show e :: es = [e] ++ es from rfl, happened_append, ih]
    cases e with
    | lin x => cases x <;> simp [happened, Semaphore.given] <;> omega
    | _ => simp [happened, Semaphore.given]

/-- Who has returned with a permit took one. -/
theorem took_le {M d : Int} {as : List (Act Semaphore.Op)} {s : Semaphore.LowSt} {es : Semaphore.Trace}
    (h : runs (Low.step (Semaphore.obj M)) (Low.init d) as = some (s, es)) : rets tookOne es ≤ Semaphore.taken es := by
  have hcls : ∀ t k s k', ((Semaphore.obj M).body t k s).fin.todo = some k' → tookOne k' = tookOne k := by
    intro t k s k' hk
    cases k with
    | release n =>
      simp only [Semaphore.obj] at hk
      split at hk
      · simp [Fin.todo] at hk; subst hk; rfl
      · cases n <;> simp [Fin.todo] at hk
        subst hk; rfl
    | _ => simp only [Semaphore.obj] at hk; split at hk <;> simp [Fin.todo] at hk; try (subst hk; rfl)
  suffices hb : Bal (fun t => match opens es t, (s.pc t).result with | some k, some v => if tookOne k v then 1 else 0 | _, _ => 0)
      (Semaphore.taken es) (rets tookOne es) from hb.le
  refine low_inv (fun s es => Bal (fun t => match opens es t, (s.pc t).result with
    | some k, some v => if tookOne k v then 1 else 0 | _, _ => 0) (Semaphore.taken es) (rets tookOne es)) (Bal.init fun t => by simp [opens])
    ?_ h
  intro bs s a s' e1 es hr hInv hI hs
  rcases low_cases hs with ⟨t, j, hp, -, h3, rfl⟩ | ⟨t, j, hp, -, h3, rfl⟩ | ⟨t, v, hp, -, h3, rfl⟩ | ⟨t, q, rfl, -, h3, h4, h5, h6, h7⟩
  · refine hI.step t (fun u hu => by simp [opens_append, note, h3, hu]) ?_
    simp [h3, Pc.result, rets_snoc, Semaphore.taken, hp]
  · have hv : ∀ u, u ≠ t → (match opens (es ++ ((Semaphore.obj M).body t j s.sh).ev.map Ev.lin) u, (s'.pc u).result with
        | some k, some v => if tookOne k v then 1 else 0 | _, _ => 0) =
        (match opens es u, (s.pc u).result with | some k, some v => if tookOne k v then 1 else 0 | _, _ => 0 : Nat) := by
      intro u hu
      rw [opens_lin, h3, upd_other _ _ hu]
    refine hI.step t hv ?_
    have ho : ∃ k, opens es t = some k := by
      cases ho : opens es t with
      | none => have := (opens_idle hr t).1 ho; rw [hp] at this; cases this
      | some k => exact ⟨k, rfl⟩
    obtain ⟨k, ho⟩ := ho
    have hkj : tookOne j = tookOne k := todo_class tookOne hcls hr ho (by rw [hp]; rfl)
    rw [rets_append_lin, opens_lin, h3, upd_same, ho, hp]
    simp only [Pc.result]
    have hm : (match some k, ((Semaphore.obj M).body t j s.sh).fin.result with
        | some k, some v => if tookOne k v then 1 else 0 | _, _ => 0 : Nat) =
        (((Semaphore.obj M).body t j s.sh).fin.result.elim 0 fun v => if tookOne j v then 1 else 0) := by
      cases ((Semaphore.obj M).body t j s.sh).fin.result <;> simp [hkj]
    rw [hm]
    have htk : Semaphore.taken (es ++ ((Semaphore.obj M).body t j s.sh).ev.map Ev.lin) =
        Semaphore.taken es + Semaphore.taken (((Semaphore.obj M).body t j s.sh).ev.map Ev.lin) := by simp [Semaphore.taken]
    rw [htk]
    cases j with
    | acquire => by_cases hz : s.sh = 0 <;> simp [Semaphore.obj, hz, Fin.result, tookOne, Semaphore.taken] <;> omega
    | tryAcquire => by_cases hz : s.sh = 0 <;> simp [Semaphore.obj, hz, Fin.result, tookOne, Semaphore.taken] <;> omega
    | release n =>
      by_cases hz : s.sh = M
      · simp [Semaphore.obj, hz, Fin.result, Semaphore.taken]
      · cases n <;> simp [Semaphore.obj, hz, Fin.result, tookOne, Semaphore.taken]
  · refine hI.step t (fun u hu => by simp [opens_append, note, h3, hu]) ?_
    simp only [rets_snoc, opens_append, List.foldl_cons, List.foldl_nil, note, upd_same, hp, Pc.result, Fin.result]
    simp only [Semaphore.taken, List.countP_append, List.countP_cons, List.countP_nil]
    cases ho : opens es t with
    | none => simp
    | some k => simp; omega
  · rw [List.append_nil]
    refine hI.same fun u => ?_
    by_cases hu : u = t
    · subst hu; rw [h3, upd_same, h5]
    · rw [h3, upd_other _ _ hu]

/-- **C105 for co_counting_semaphore**: if at most `N` permits are given back altogether, and the semaphore is destroyed when all of them and
the `d` initial ones have been taken by calls that have returned, at that time nobody is inside a call other than `release` and nobody calls
anything else later, then nobody uses the semaphore after its destruction - not even the `release` that gave the last permit. -/
theorem C105_semaphore {M : Int} {d N : Nat} (hd : (d : Int) ≤ M) (hN : 0 < d + N) {as : List (LAct Semaphore.Op)}
    {s : Life Int Semaphore.Cv Semaphore.Op Bool} {es : List (LEv _ _ _)}
    (h : runs (Life.step (Semaphore.obj M)) (Life.init (d : Int)) as = some (s, es)) (hn : called semWeight (uses es) ≤ N)
    (hc : Careful isRelease (fun es => d + N ≤ rets tookOne es) es) : s.ub = false := by
  have P : Plan (Semaphore.obj M) (d : Int) N semWeight (fun x => match x with | .gave _ => 1 | _ => 0) (fun _ _ => True) := by
    refine ⟨trivial, fun t k s c _ hw => ⟨trivial, ?_⟩⟩
    cases k with
    | release n =>
      by_cases hz : s = M
      · simp [Semaphore.obj, hz, Fin.todo, owed, semWeight]
      · cases n <;> simp [Semaphore.obj, hz, Fin.todo, owed, semWeight] <;> omega
    | _ => by_cases hz : s = 0 <;> simp [Semaphore.obj, hz, Fin.todo, owed, semWeight]
  refine P.safe (own := isRelease) ?_ ?_ (by simp [rets]; omega) ?_ (fun es e => rets_no_ret _ _ es e) h hn hc
  · intro k hk
    cases k <;> simp_all [isRelease, semWeight]
  · intro t k s k' hk
    cases k with
    | release n =>
      simp only [Semaphore.obj] at hk
      split at hk
      · simp [Fin.todo] at hk; subst hk; rfl
      · cases n <;> simp [Fin.todo] at hk
        subst hk; rfl
    | _ => simp only [Semaphore.obj] at hk; split at hk <;> simp [Fin.todo] at hk; try (subst hk; rfl)
  · intro as s es hr hw he
    have h1 := Semaphore.C23_permits_conserved M d ⟨by omega, hd⟩ as s es hr
    have h2 := took_le hr
    rw [given_happened]
    omega

/-! ## Concrete cases -/

theorem careful_of {own : K → Bool} {enough : List (Ev K V E) → Prop} {es : List (Ev K V E)} (h1 : enough es)
    (h2 : ∀ t, opens es t = none) : Careful own enough (es.map .ev ++ [.destroy]) := by
  intro e1 e2 he
  have h3 : e2 = [] := by
    rcases List.eq_nil_or_concat e2 with h | ⟨l, x, rfl⟩
    · exact h
    · exfalso
      rw [List.concat_eq_append, ← List.cons_append, ← List.append_assoc] at he
      have := (List.append_inj' he rfl).1
      have hm : LEv.destroy ∈ es.map (LEv.ev (K := K) (V := V) (E := E)) := by rw [this]; simp
      simp at hm
  subst h3
  have h4 := (List.append_inj' he rfl).1
  subst h4
  rw [uses_map]
  exact ⟨h1, fun t k h => (by rw [h2] at h; cases h), by simp, by simp⟩

/-- Steps of a coroutine. (Concerns co_wait_group.cpp:7-36, co_latch.cpp:7-46.) -/
def goes (K : Type) (t : Tid) (n : Nat) : List (LAct K) := List.replicate n (.use (.run t true))

set_option maxRecDepth 20000

/-- A group of two: 1 waits, 2 and 3 are done, 1 returns and destroys the group. (Concerns co_wait_group.cpp:7-36, co_latch.cpp:7-46.) -/
def groupRun : List (LAct WaitGroup.Op) :=
  [.use (.call 1 .wait)] ++ goes _ 1 14 ++ [.use (.call 2 .done)] ++ goes _ 2 10 ++ [.use (.call 3 .done)] ++ goes _ 3 15 ++ goes _ 1 11 ++
    [.destroy]

/-- Its trace. (Concerns co_wait_group.cpp:7-36, co_latch.cpp:7-46.) -/
def groupTrace : List (Ev WaitGroup.Op WaitGroup.Res WaitGroup.Lin) :=
  [.call 1 .wait, .call 2 .done, .lin (.fin 2), .ret 2 .ok, .call 3 .done, .lin (.fin 3), .ret 3 .ok, .lin (.passed 1), .ret 1 .ok]

/-- Non-trivial case of `C105_wait_group`. -/
example : (∃ s, runs (Life.step (WaitGroup.obj 2)) (Life.init 0) groupRun = some (s, groupTrace.map .ev ++ [.destroy]) ∧ s.dead = true) ∧
    called (fun k => if k = .done then 1 else 0) (uses (groupTrace.map .ev ++ [.destroy])) ≤ 2 ∧
    Careful (· == .done) (fun es => 1 ≤ rets (fun k _ => k == .wait) es) (groupTrace.map .ev ++ [.destroy]) := by
  refine ⟨⟨_, rfl, rfl⟩, by decide, careful_of (by decide) (fun t => ?_)⟩
  simp [groupTrace, opens, note, upd_apply]
  grind

/-- The condition that no other `wait()` is on its way is needed: 1 and 2 wait; 1 returns and destroys the group, 2 then makes a step in it. -/
example : (runs (Life.step (WaitGroup.obj 1)) (Life.init 0) ([.use (.call 1 .wait)] ++ goes _ 1 14 ++ [.use (.call 2 .wait)] ++ goes _ 2 14 ++
    [.use (.call 3 .done)] ++ goes _ 3 16 ++ goes _ 1 11 ++ [.destroy] ++ goes _ 2 1)).map (fun p => p.1.ub) = some true := by decide

/-- **C105, a barrier is different**: that one's own `arrive_and_wait()` has returned is not enough to destroy a barrier: the others may be
still inside (as with std::barrier). 1 and 2 meet; 2, the last to arrive, returns and destroys the barrier. -/
theorem C105_barrier_returned_is_not_enough : ∃ as s es, runs (Life.step (Barrier.obj 2)) (Life.init (Barrier.B.init 2)) as = some (s, es) ∧
    rets (fun k _ => k == .arriveWait) (uses es) = 1 ∧ s.ub = true := by
  refine ⟨[.use (.call 1 .arriveWait)] ++ goes _ 1 24 ++ [.use (.call 2 .arriveWait)] ++ goes _ 2 25 ++ [.destroy] ++ goes _ 1 1, _, _, rfl,
    by decide, by decide⟩

/-- A latch of two: 1 waits, 2 counts 2 down, 1 returns and destroys the latch. (Concerns co_wait_group.cpp:7-36, co_latch.cpp:7-46.) -/
def latchRun : List (LAct Latch.Op) :=
  [.use (.call 1 .wait)] ++ goes _ 1 14 ++ [.use (.call 2 (.countDown 2))] ++ goes _ 2 15 ++ goes _ 1 11 ++ [.destroy]

/-- Its trace. (Concerns co_wait_group.cpp:7-36, co_latch.cpp:7-46.) -/
def latchTrace : List (Ev Latch.Op Latch.Res Latch.Lin) :=
  [.call 1 .wait, .call 2 (.countDown 2), .lin (.down 2 2), .ret 2 .done, .lin (.passed 1), .ret 1 .done]

/-- Non-trivial case of `C105_latch`. -/
example : (∃ s, runs (Life.step Latch.obj) (Life.init ((2 : Nat) : Int)) latchRun = some (s, latchTrace.map .ev ++ [.destroy]) ∧ s.dead = true) ∧
    called latchWeight (uses (latchTrace.map .ev ++ [.destroy])) ≤ 2 ∧
    Careful justCounts (fun es => 1 ≤ rets sawZero es) (latchTrace.map .ev ++ [.destroy]) := by
  refine ⟨⟨_, rfl, rfl⟩, by decide, careful_of (by decide) (fun t => ?_)⟩
  simp [latchTrace, opens, note, upd_apply]
  grind

/-- A semaphore without permits: 1 acquires, 2 releases, 1 returns and destroys the semaphore. (Concerns co_wait_group.cpp:7-36, co_latch.cpp:7-46.) -/
def semRun : List (LAct Semaphore.Op) :=
  [.use (.call 1 .acquire)] ++ goes _ 1 14 ++ [.use (.call 2 (.release 0))] ++ goes _ 2 14 ++ goes _ 1 14 ++ [.destroy]

/-- Its trace. (Concerns co_wait_group.cpp:7-36, co_latch.cpp:7-46.) -/
def semTrace : Semaphore.Trace :=
  [.call 1 .acquire, .call 2 (.release 0), .lin (.gave 2), .ret 2 true, .lin (.took 1), .ret 1 true]

/-- Non-trivial case of `C105_semaphore`. -/
example : (∃ s, runs (Life.step (Semaphore.obj 1)) (Life.init ((0 : Nat) : Int)) semRun = some (s, semTrace.map .ev ++ [.destroy]) ∧
      s.dead = true) ∧
    called semWeight (uses (semTrace.map .ev ++ [.destroy])) ≤ 1 ∧
    Careful isRelease (fun es => 0 + 1 ≤ rets tookOne es) (semTrace.map .ev ++ [.destroy]) := by
  refine ⟨⟨_, rfl, rfl⟩, by decide, careful_of (by decide) (fun t => ?_)⟩
  simp [semTrace, opens, note, upd_apply]
  grind

end
end Verif.Monitor

/-! ## co_mutex -/

namespace Verif.Mutex
open LockSpec

/-- Who was the last to acquire the mutex, and has its `unlock()` returned since? (Concerns co_wait_group.cpp:7-36, co_latch.cpp:7-46.) -/
def lastHolder (es : List Ev) : Option (Tid × Bool) :=
  es.foldl (fun l e => match e with
    | .acq t => some (t, false)
    | .unlockRet t true => l.map fun p => (p.1, p.2 || p.1 == t)
    | _ => l) none

/-- Proof device: not inside an `unlock()` of the mutex one holds, and not holding it. (Concerns co_wait_group.cpp:7-36, co_latch.cpp:7-46.) -/
def Gone (s : St) (t : Tid) : Prop := s.hold t = false ∧ s.pc t ≠ .ulAcq true ∧ s.pc t ≠ .ulTest true ∧ s.pc t ≠ .ulRet true

/-- Proof device. (Concerns co_wait_group.cpp:7-36, co_latch.cpp:7-46.) -/
def LastInv (s : St) (es : List Ev) : Prop :=
  ∀ t b, lastHolder es = some (t, b) → (∀ u, u ≠ t → Gone s u) ∧ (b = true → Gone s t)

theorem last_step {s s' : St} {a : Act} {es e1 : List Ev} (hI : Inv s) (h : LastInv s es) (hs : step false s a = some (s', e1)) :
    LastInv s' (es ++ e1) := by
  have nil : ∀ x : Tid, e1 = [] ∨ (∃ t, e1 = [.unlockCall t] ∨ e1 = [.tryFail t] ∨ e1 = [.unlockRet t false]) →
      (∀ u, Gone s u → Gone s' u) → LastInv s' (es ++ e1) := by
    rintro - he hg t b hl
    have : lastHolder (es ++ e1) = lastHolder es := by
      rcases he with rfl | ⟨t, rfl | rfl | rfl⟩ <;> simp [lastHolder]
    rw [this] at hl
    exact ⟨fun u hu => hg u ((h t b hl).1 u hu), fun hb => hg t ((h t b hl).2 hb)⟩
  have acq : ∀ t, s.owner = some t → (s.pc t).spin = true → e1 = [.acq t] → (∀ u, u ≠ t → s'.pc u = s.pc u ∧ s'.hold u = s.hold u) →
      LastInv s' (es ++ e1) := by
    rintro t ho hsp rfl hsame t' b hl
    have : lastHolder (es ++ [.acq t]) = some (t, false) := by simp [lastHolder]
    rw [this] at hl
    simp only [Option.some.injEq, Prod.mk.injEq] at hl
    obtain ⟨rfl, rfl⟩ := hl
    refine ⟨fun u hu => ?_, fun h => by cases h⟩
    have hl := hI.loc u
    have hne : s.owner ≠ some u := by rw [ho]; simpa using Ne.symm hu
    have hns : (s.pc u).spin = false := by
      cases hx : (s.pc u).spin with
      | false => rfl
      | true =>
        have h1 := (hI.spin u).1 hx
        have h2 := (hI.spin t).1 hsp
        rw [h1] at h2; simp at h2; exact absurd h2 hu
    simp only [Gone, (hsame u hu).1, (hsame u hu).2]
    cases hp : s.pc u <;> simp only [Loc, hp, Pc.spin] at hl hns <;> simp_all
  cases a with
  | callLock t =>
    simp only [step, St.goto] at hs
    split at hs <;> cases hs
    refine nil 0 (.inl rfl) fun u hu => ?_
    by_cases h1 : u = t
    · subst h1; simp [Gone]; exact hu.1
    · simpa [Gone, h1] using hu
  | callTry t =>
    simp only [step, St.goto] at hs
    split at hs <;> cases hs
    refine nil 0 (.inl rfl) fun u hu => ?_
    by_cases h1 : u = t
    · subst h1; simp [Gone]; exact hu.1
    · simpa [Gone, h1] using hu
  | callUnlock t =>
    simp only [step] at hs
    split at hs <;> cases hs
    refine nil 0 (.inr ⟨t, .inl rfl⟩) fun u hu => ?_
    by_cases h1 : u = t
    · subst h1; simp [Gone, hu.1]
    · simpa [Gone, h1] using hu
  | run t b =>
    have hl := hI.loc t
    simp only [step, runStep, St.acquire, St.goto] at hs
    have keep : ∀ p : Pc, s'.pc = upd s.pc t p → s'.hold = s.hold → (p = .ulTest true → s.pc t = .ulAcq true) →
        (p = .ulRet true → s.pc t = .ulTest true) → p ≠ .ulAcq true → ∀ u, Gone s u → Gone s' u := by
      intro p h1 h2 h3 h4 h5 u hu
      by_cases hut : u = t
      · subst hut
        simp only [Gone, h1, h2, upd_same]
        exact ⟨hu.1, h5, fun h => hu.2.1 (h3 h), fun h => hu.2.2.1 (h4 h)⟩
      · simpa [Gone, h1, h2, hut] using hu
    cases hp : s.pc t <;> simp only [hp] at hs <;> simp only [Loc, hp] at hl
    case out => cases hs
    case lkRet =>
      cases hs
      exact acq t hl.2.1 (by rw [hp]; rfl) rfl fun u hu => by simp [hu]
    case tlRet b =>
      cases b <;> cases hs <;> simp only [if_true, Bool.false_eq_true, if_false]
      · exact nil 0 (.inr ⟨t, .inr (.inl rfl)⟩) (keep .out rfl rfl (by simp) (by simp) (by simp))
      · exact acq t hl.2.1 (by rw [hp]; rfl) rfl fun u hu => by simp [hu]
    case ulRet ok =>
      cases ok
      · cases hs
        exact nil 0 (.inr ⟨t, .inr (.inr rfl)⟩) (keep .out rfl rfl (by simp) (by simp) (by simp))
      · cases hs
        have kk := keep .out rfl rfl (by simp) (by simp) (by simp)
        intro t' b' hl'
        have hlast : lastHolder (es ++ [.unlockRet t true]) = (lastHolder es).map fun p => (p.1, p.2 || p.1 == t) := by simp [lastHolder]
        rw [hlast, Option.map_eq_some_iff] at hl'
        obtain ⟨⟨t1, b1⟩, q1, q2⟩ := hl'
        simp only [Prod.mk.injEq] at q2
        obtain ⟨rfl, rfl⟩ := q2
        refine ⟨fun u hu => kk u ((h _ _ q1).1 u hu), fun hb => ?_⟩
        simp only [Bool.or_eq_true, beq_iff_eq] at hb
        by_cases ht : t1 = t
        · subst ht; simp [Gone]; exact hl.1
        · rcases hb with hb | hb
          · exact kk _ ((h _ _ q1).2 hb)
          · exact absurd hb ht
    case ulAcq hh =>
      split at hs <;> cases hs
      refine nil 0 (.inl rfl) (keep _ rfl rfl ?_ (by simp) (by simp))
      intro he; simp at he; rw [hp, he]
    case ulTest hh =>
      have hk : ∀ ok, (ok = true → hh = true) → s'.pc = upd s.pc t (.ulRet ok) → s'.hold = s.hold → e1 = [] → LastInv s' (es ++ e1) := by
        rintro ok h1 h2 h3 rfl
        refine nil 0 (.inl rfl) (keep _ h2 h3 (by simp) ?_ (by simp))
        intro he; simp at he; rw [hp, h1 he]
      split at hs
      · rename_i ho
        have := hl.2.1.2 ho
        split at hs <;> cases hs <;> exact hk true (fun _ => this) rfl rfl rfl
      · cases hs; exact hk false (by simp) rfl rfl rfl
    all_goals
      (repeat' split at hs) <;> cases hs <;>
        exact nil 0 (.inl rfl) (keep _ rfl rfl (by simp) (by simp) (by simp))

/-- **C105 for co_mutex**: when `unlock()` has returned to the last who acquired the mutex, nobody is inside `lock()` or `try_lock()` and
nobody unlocks a mutex they do not hold, then nobody is inside the mutex: also the `unlock()` of every earlier holder does not access it any
more. So the last user may destroy the object the mutex is in. -/
theorem C105_mutex {as : List Act} {s : St} {es : List Ev} (h : runs (step false) St.init as = some (s, es)) {t : Tid}
    (hl : lastHolder es = some (t, true))
    (hn : ∀ u, s.pc u = .out ∨ s.pc u = .ulAcq true ∨ s.pc u = .ulTest true ∨ s.pc u = .ulRet true) :
    (∀ u, s.pc u = .out) ∧ s.spin = none ∧ s.owner = none ∧ s.queue = [] ∧ ∀ u b, step false s (.run u b) = none := by
  have key : ∀ (as : List Act) (x y : St) (d es : List Ev), Inv x → LastInv x d → runs (step false) x as = some (y, es) →
      Inv y ∧ LastInv y (d ++ es) := by
    intro as
    induction as with
    | nil =>
      intro x y d es h1 h2 h
      simp only [runs, Option.some.injEq, Prod.mk.injEq] at h
      obtain ⟨rfl, rfl⟩ := h
      exact ⟨h1, by simpa using h2⟩
    | cons a as ih =>
      intro x y d es h1 h2 h
      obtain ⟨x1, e1, e2, q1, q2, rfl⟩ := runs_cons h
      have := ih x1 y (d ++ e1) e2 (inv_step _ _ _ _ h1 q1) (last_step h1 h2 q1) q2
      rwa [List.append_assoc] at this
  obtain ⟨hI, hL⟩ := key as _ s [] es inv_init (fun t b h => by simp [lastHolder] at h) h
  obtain ⟨q1, q2⟩ := hL t true (by simpa using hl)
  have hg : ∀ u, Gone s u := fun u => if hu : u = t then hu ▸ q2 rfl else q1 u hu
  have hout : ∀ u, s.pc u = .out := fun u => by
    obtain ⟨-, h1, h2, h3⟩ := hg u
    rcases hn u with h | h | h | h
    · exact h
    · exact absurd h h1
    · exact absurd h h2
    · exact absurd h h3
  have ho : s.owner = none := by
    cases ho : s.owner with
    | none => rfl
    | some u =>
      have := hI.loc u
      simp only [Loc, hout u] at this
      have := this.1.2 ho
      rw [(hg u).1] at this; cases this
  refine ⟨hout, ?_, ho, hI.free ho, fun u b => by simp [step, runStep, hout u]⟩
  cases hs : s.spin with
  | none => rfl
  | some u =>
    have := (hI.spin u).2 hs
    rw [hout u] at this; cases this

/-- Non-trivial case of `C105_mutex`: 1 holds the mutex, 2 queues up; 1 unlocks and hands it to 2, which is woken but has to wait until 1 has
let go of the spinlock; 2 unlocks. -/
example : ∃ s es, runs (step false) St.init ([.callLock 1, .run 1 false, .run 1 false, .run 1 false, .callLock 2] ++
      List.replicate 5 (.run 2 true) ++ [.callUnlock 1, .run 1 true, .run 1 true, .run 2 true, .run 1 true] ++ List.replicate 3 (.run 2 true) ++
      [.callUnlock 2] ++ List.replicate 3 (.run 2 true)) = some (s, es) ∧
    es = [.acq 1, .unlockCall 1, .unlockRet 1 true, .acq 2, .unlockCall 2, .unlockRet 2 true] ∧ lastHolder es = some (2, true) := by
  exact ⟨_, _, rfl, rfl, by decide⟩

end Verif.Mutex
