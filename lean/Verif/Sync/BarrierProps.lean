import Verif.Sync.BarrierInv
import Verif.Base.Sum

/-! # Properties of co_barrier (C28 – C30) -/

namespace Verif.Barrier
open Monitor

/-- Only functions of the class are called. (Concerns co_barrier.cpp:7-61.) -/
def Clients (es : Trace) : Prop := ∀ t k, Ev.call t k ∈ es → k.callable

theorem sim_reach (M : Int) (hM : 0 < M) (as : List (Act Op)) (s : LowSt) (es : Trace)
    (h : runs (Low.step (obj M)) (Low.init (B.init M)) as = some (s, es)) (hcl : Clients es) :
    ∃ q, accepts (acc M) (Q.init M) es = some q ∧ R M s.abs q :=
  abs_sim_cl (obj M) (fun _ k => k.callable) (acc M) (B.init M) (Q.init M) (R M)
    ⟨rfl, rfl, rfl, fun _ => rfl, by simp only [Abs.init, B.init]; omega, by simp [Abs.init], by simp [Abs.init]⟩
    (fun a x a' es q hw hR hc hs => sim M a x a' es q hw hR hc hs) as s es h hcl

/-- C28. For every size, every number of coroutines, every mix of calls and every schedule the trace is one of a correct
barrier. -/
theorem C28_barrier_correct (M : Int) (hM : 0 < M) (as : List (Act Op)) (s : LowSt) (es : Trace)
    (h : runs (Low.step (obj M)) (Low.init (B.init M)) as = some (s, es)) (hcl : Clients es) : Correct M es := by
  obtain ⟨q, hq, _⟩ := sim_reach M hM as s es h hcl
  exact ⟨q, hq⟩

/-- Sum of the counts of the `wait`s registered in phase `g`. (Concerns co_barrier.cpp:7-61.) -/
def waitedIn (g : Int) (es : Trace) : Int :=
  (es.map fun e => match e with | .lin (.waited _ g' n) => if g' = g then (n : Int) else 0 | _ => 0).sum

/-- Sum of the counts of all `wait`s registered. (Concerns co_barrier.cpp:7-61.) -/
def waitedAll (es : Trace) : Int :=
  (es.map fun e => match e with | .lin (.waited _ _ n) => (n : Int) | _ => 0).sum

theorem waitedIn_snoc (g : Int) (es : Trace) (e : Ev Op Res Lin) :
    waitedIn g (es ++ [e]) = waitedIn g es + waitedIn g [e] := by simp [waitedIn]

theorem waitedAll_snoc (es : Trace) (e : Ev Op Res Lin) :
    waitedAll (es ++ [e]) = waitedAll es + waitedAll [e] := by simp [waitedAll]

/-- Proof device: bookkeeping of arrivals per phase. (Concerns co_barrier.cpp:7-61.) -/
structure Acct (M : Int) (es : Trace) (q : Q) : Prop where
  past : ∀ g, 0 ≤ g → g < q.phase → waitedIn g es = M
  now : waitedIn q.phase es = M - q.left
  future : ∀ g, q.phase < g → waitedIn g es = 0
  all : waitedAll es = q.phase * M + (M - q.left)
  range : 0 ≤ q.phase ∧ 0 < q.left ∧ q.left ≤ M

theorem acct_quiet {M : Int} {es : Trace} {q q' : Q} {e : Ev Op Res Lin} (h : Acct M es q)
    (h1 : ∀ g, waitedIn g [e] = 0) (h2 : waitedAll [e] = 0) (hp : q'.phase = q.phase) (hl : q'.left = q.left) :
    Acct M (es ++ [e]) q' := by
  obtain ⟨a, b, c, d, f⟩ := h
  refine ⟨fun g h0 hg => ?_, ?_, fun g hg => ?_, ?_, by rw [hp, hl]; exact f⟩
  · rw [waitedIn_snoc, h1, a g h0 (by rw [← hp]; exact hg)]; simp
  · rw [waitedIn_snoc, h1, hp, b, hl]; simp
  · rw [waitedIn_snoc, h1, c g (by rw [← hp]; exact hg)]; simp
  · rw [waitedAll_snoc, h2, d, hp, hl]; simp

theorem acct_spec (M : Int) (hM : 0 < M) (es : Trace) :
    ∀ q, accepts (acc M) (Q.init M) es = some q → Acct M es q := by
  induction es using list_snoc with
  | nil =>
    intro q h
    simp only [accepts, Option.some.injEq] at h
    subst h
    exact ⟨fun g h0 hg => by simp only [Q.init] at hg; omega, by simp [waitedIn, Q.init], by simp [waitedIn],
      by simp [waitedAll, Q.init], by simp only [Q.init]; omega⟩
  | snoc es e ih =>
    intro q' h
    rw [accepts_append] at h
    cases hq : accepts (acc M) (Q.init M) es with
    | none => simp [hq] at h
    | some q =>
      have hA := ih q hq
      simp only [hq, Option.bind_some, accepts] at h
      cases he : acc M q e with
      | none => simp [he] at h
      | some q1 =>
        simp only [he, Option.bind_some, Option.some.injEq] at h
        subst h
        cases e with
        | call t k =>
          cases k <;> simp only [acc] at he <;> first | (cases he; done) | skip
          all_goals
            split at he <;> cases he
            exact acct_quiet hA (by simp [waitedIn]) (by simp [waitedAll]) rfl rfl
        | ret t b =>
          simp only [acc] at he; split at he <;> cases he
          exact acct_quiet hA (by simp [waitedIn]) (by simp [waitedAll]) rfl rfl
        | lin e =>
          cases e with
          | arrived t g n =>
            simp only [acc] at he
            split at he
            · split at he
              · cases he; exact acct_quiet hA (by simp [waitedIn]) (by simp [waitedAll]) rfl rfl
              · split at he <;> cases he
                exact acct_quiet hA (by simp [waitedIn]) (by simp [waitedAll]) rfl rfl
            · cases he
          | dropped t g =>
            simp only [acc] at he
            split at he <;> cases he
            exact acct_quiet hA (by simp [waitedIn]) (by simp [waitedAll]) rfl rfl
          | refused t =>
            simp only [acc] at he
            split at he
            · split at he <;> cases he
              exact acct_quiet hA (by simp [waitedIn]) (by simp [waitedAll]) rfl rfl
            · cases he
          | badWait t =>
            simp only [acc] at he
            split at he
            · split at he <;> cases he
              exact acct_quiet hA (by simp [waitedIn]) (by simp [waitedAll]) rfl rfl
            · cases he
          | released t g =>
            simp only [acc] at he
            split at he <;> cases he
            exact acct_quiet hA (by simp [waitedIn]) (by simp [waitedAll]) rfl rfl
          | waited t g n =>
            obtain ⟨a, b, c, d, f⟩ := hA
            simp only [acc] at he
            split at he
            · rename_i hc
              obtain ⟨_, rfl, hn⟩ := hc
              have hin : ∀ g', waitedIn g' [.lin (.waited t q.phase n)] = if q.phase = g' then (n : Int) else 0 := by
                intro g'; simp [waitedIn]
              have hall : waitedAll [.lin (.waited t q.phase n)] = n := by simp [waitedAll]
              split at he <;> cases he
              · rename_i hz
                refine ⟨fun g' h0 hg => ?_, ?_, fun g' hg => ?_, ?_, ?_⟩
                · rw [waitedIn_snoc, hin]
                  by_cases hgg : q.phase = g'
                  · subst hgg; rw [b, if_pos rfl]; omega
                  · rw [if_neg hgg, a g' h0 (by simp only at hg; omega)]; simp
                · simp only
                  rw [waitedIn_snoc, hin, if_neg (by omega), c _ (by omega)]; omega
                · simp only at hg
                  rw [waitedIn_snoc, hin, if_neg (by omega), c _ (by omega)]; omega
                · simp only
                  rw [waitedAll_snoc, hall, d, Int.add_mul]; omega
                · simp only; omega
              · rename_i hz
                refine ⟨fun g' h0 hg => ?_, ?_, fun g' hg => ?_, ?_, ?_⟩
                · simp only at hg
                  rw [waitedIn_snoc, hin, if_neg (by omega), a g' h0 hg]; simp
                · simp only
                  rw [waitedIn_snoc, hin, if_pos rfl, b]; omega
                · simp only at hg
                  rw [waitedIn_snoc, hin, if_neg (by omega), c _ hg]; simp
                · simp only
                  rw [waitedAll_snoc, hall, d]; omega
                · simp only; omega
            · cases he

/-- C28. Whenever a coroutine whose `wait` was registered in phase `g` goes on, the `wait`s registered in that phase add
up to exactly the size of the barrier. -/
theorem C28_no_early_release (M : Int) (hM : 0 < M) (as : List (Act Op)) (s : LowSt) (es pre post : Trace)
    (t : Tid) (g : Int) (h : runs (Low.step (obj M)) (Low.init (B.init M)) as = some (s, es)) (hcl : Clients es)
    (hes : es = pre ++ .lin (.released t g) :: post) (hg : 0 ≤ g) : waitedIn g pre = M := by
  obtain ⟨q, hq, _⟩ := sim_reach M hM as s es h hcl
  rw [hes, accepts_append] at hq
  cases hp : accepts (acc M) (Q.init M) pre with
  | none => simp [hp] at hq
  | some q1 =>
    have h1 := acct_spec M hM pre _ hp
    simp only [hp, Option.bind_some, accepts, acc] at hq
    split at hq
    · rename_i hc
      exact h1.past g hg hc.2
    · cases hq

/-- C28. The number of phases completed is the waited count divided by the size, and no phase gets more than its
share. -/
theorem C28_phases_counted (M : Int) (hM : 0 < M) (as : List (Act Op)) (s : LowSt) (es : Trace)
    (h : runs (Low.step (obj M)) (Low.init (B.init M)) as = some (s, es)) (hcl : Clients es) :
    s.sh.gen = waitedAll es / M ∧ ∀ g, 0 ≤ g → waitedIn g es ≤ M := by
  obtain ⟨q, hq, hR⟩ := sim_reach M hM as s es h hcl
  have hA := acct_spec M hM es q hq
  have h1 : q.phase = s.sh.gen := hR.phase
  obtain ⟨a, b, c, d, f⟩ := hA
  constructor
  · rw [← h1, d]
    have : (q.phase * M + (M - q.left)) / M = q.phase := by
      rw [Int.add_comm, Int.add_mul_ediv_right _ _ (by omega), Int.ediv_eq_zero_of_lt (by omega) (by omega)]
      omega
    exact this.symm
  · intro g hg
    by_cases hlt : g < q.phase
    · rw [a g hg hlt]; omega
    · by_cases heq : g = q.phase
      · rw [heq, b]; omega
      · rw [c g (by omega)]; omega

/-- Three coroutines, a barrier of 3; then 1 enters the second phase alone and stays. (Concerns co_barrier.cpp:7-61.) -/
def demo : List (Act Op) :=
  [.call 1 .arriveWait] ++ List.replicate 10 (.run 1) ++ [.call 2 .arriveWait] ++ List.replicate 10 (.run 2) ++
  [.call 3 .arriveWait] ++ List.replicate 12 (.run 3) ++ List.replicate 4 (.run 2) ++ List.replicate 4 (.run 1) ++
  [.call 1 .arriveWait] ++ List.replicate 10 (.run 1)

example : (runs (Low.step (obj 3)) (Low.init (B.init 3)) demo).map (fun p => (p.1.sh, p.1.pc 1, p.2)) =
    some (⟨2, 2, 1⟩, .pYield () (.resume 1), [.call 1 .arriveWait, .lin (.arrived 1 0 1), .lin (.waited 1 0 1),
      .call 2 .arriveWait, .lin (.arrived 2 0 1), .lin (.waited 2 0 1), .call 3 .arriveWait, .lin (.arrived 3 0 1),
      .lin (.waited 3 0 1), .lin (.released 3 0), .ret 3 .ok, .lin (.released 2 0), .ret 2 .ok, .lin (.released 1 0),
      .ret 1 .ok, .call 1 .arriveWait, .lin (.arrived 1 1 1), .lin (.waited 1 1 1)]) := by decide

/-! ## C29 -/

/-- C29. When a phase completes everybody in it is released: a coroutine that is inside a call while nobody inside can
make a step waits for a phase that is not complete. -/
theorem C29_blocked_only_in_open_phase (M : Int) (hM : 0 < M) (as : List (Act Op)) (s : LowSt) (es : Trace)
    (h : runs (Low.step (obj M)) (Low.init (B.init M)) as = some (s, es)) (hcl : Clients es)
    (hst : ∀ t, s.step (obj M) (.run t) = none) (t : Tid) (ht : s.pc t ≠ .idle) :
    s.pc t = .pYield () (.resume s.sh.gen) ∧ waitedIn s.sh.gen es < M := by
  obtain ⟨q, hq, hR⟩ := sim_reach M hM as s es h hcl
  have hA := acct_spec M hM es q hq
  have h1 : q.phase = s.sh.gen := hR.phase
  rcases C22_stuck_only_parked (obj M) (B.init M) s ⟨as, es, h⟩ hst t with ⟨hh, _⟩ | ⟨c, j, hpc, _, hmem, hth, hwq⟩
  · exact absurd hh ht
  · have hk := hR.kind t j hth
    subst hk
    refine ⟨hpc, ?_⟩
    rw [← h1, hA.now]
    have := hA.range
    omega

theorem shrinks (M : Int) : ∃ rem, Shrinks (obj M) rem := by
  refine ⟨fun k => match k with | .arriveWait => 3 | .wait .. => 2 | _ => 1, ?_⟩
  intro t k sh
  cases k with
  | arrive n => by_cases hc : sh.expected - n < 0 <;> simp [obj, arriveBody, hc]
  | arriveWait => by_cases hc : sh.expected - 1 < 0 <;> simp [obj, arriveBody, hc]
  | arriveDrop => by_cases hc : sh.expected - 1 < 0 <;> simp [obj, arriveBody, hc]
  | resume g => simp [obj]
  | wait same g n =>
    by_cases h1 : g ≠ sh.gen ∨ same = false
    · simp only [obj, if_pos h1]; omega
    · by_cases h2 : sh.count - n < 0
      · simp only [obj, if_neg h1, if_pos h2]; omega
      · by_cases h3 : sh.count - n = 0
        · simp only [obj, if_neg h1, if_neg h2, if_pos h3]; omega
        · simp only [obj, if_neg h1, if_neg h2, if_neg h3]; omega

/-- C29. Without new calls every execution is finite. -/
theorem C29_terminates (M : Int) (as : List (Act Op)) (s : LowSt) (es : Trace)
    (h : runs (Low.step (obj M)) (Low.init (B.init M)) as = some (s, es)) :
    ¬ ∃ f : Nat → LowSt, f 0 = s ∧ ∀ n, ∃ t e, (f n).step (obj M) (.run t) = some (f (n + 1), e) := by
  obtain ⟨rem, hr⟩ := shrinks M
  exact terminates (obj M) rem hr _ as s es h

/-- Arrived in the current phase and not released yet; registered its `wait` in it. (Concerns co_barrier.cpp:7-61.) -/
def arr (g : Int) : Th Unit Op Res → Nat
  | .ready (.wait ..) => 1
  | .parked .. => 1
  | _ => 0
/-- Proof device: 1 for a waiting coroutine. (Concerns co_barrier.cpp:7-61.) -/
def wtd : Th Unit Op Res → Nat
  | .parked .. => 1
  | _ => 0

/-- Participants `Ps`, as many as the size, do nothing but `arrive_and_wait()`. (Concerns co_barrier.cpp:7-61.) -/
structure Fair (M : Int) (Ps : List Tid) (a : AbsSt) : Prop where
  only : ∀ t, t ∉ Ps → a.th t = .idle
  shape : ∀ t, a.th t = .idle ∨ a.th t = .ready .arriveWait ∨ a.th t = .ready (.wait true a.sh.gen 1) ∨
    a.th t = .parked () (.resume a.sh.gen) ∨ (∃ g, a.th t = .ready (.resume g)) ∨ a.th t = .leaving .ok
  exp : a.sh.expected + sumOver Ps (fun t => arr a.sh.gen (a.th t)) = M
  cnt : a.sh.count + sumOver Ps (fun t => wtd (a.th t)) = M

theorem sum_two {L : List Tid} (hn : L.Nodup) {f : Tid → Nat} (hf : ∀ u, f u ≤ 1) {t u : Tid} (ht : t ∈ L) (hu : u ∈ L)
    (htu : u ≠ t) (h1 : f t = 0) (h2 : f u = 0) : sumOver L f + 2 ≤ L.length := by
  have e1 := sumOver_single hn ht (f := fun v => if v = t then 1 else f v) (g := f) (fun v hv => by simp [hv])
  have e2 := sumOver_single hn hu (f := fun v => if v = u then 1 else if v = t then 1 else f v)
    (g := fun v => if v = t then 1 else f v) (fun v hv => by simp [hv])
  have e3 : sumOver L (fun v => if v = u then 1 else if v = t then 1 else f v) ≤ sumOver L (fun _ => 1) :=
    sumOver_le (fun v _ => by have := hf v; split <;> (try split) <;> omega)
  rw [sumOver_const] at e3
  simp only [if_true, htu, if_false, h1, h2] at e1 e2
  omega

theorem sum_one {L : List Tid} (hn : L.Nodup) {f : Tid → Nat} (hf : ∀ u, f u ≤ 1) {t : Tid} (ht : t ∈ L)
    (h1 : f t = 0) : sumOver L f + 1 ≤ L.length := by
  have e1 := sumOver_single hn ht (f := fun v => if v = t then 1 else f v) (g := f) (fun v hv => by simp [hv])
  have e3 : sumOver L (fun v => if v = t then 1 else f v) ≤ sumOver L (fun _ => 1) :=
    sumOver_le (fun v _ => by have := hf v; split <;> omega)
  rw [sumOver_const] at e3
  simp only [if_true, h1] at e1
  omega

theorem arr_le (g : Int) (x : Th Unit Op Res) : arr g x ≤ 1 := by unfold arr; split <;> omega
theorem wtd_le (x : Th Unit Op Res) : wtd x ≤ 1 := by unfold wtd; split <;> omega

theorem fair_upd {M : Int} {Ps : List Tid} {a : AbsSt} (hn : Ps.Nodup) (hF : Fair M Ps a) {t : Tid} (ht : t ∈ Ps)
    {x : Th Unit Op Res} (hx : x = .idle ∨ x = .ready .arriveWait) (h0 : arr a.sh.gen (a.th t) = 0)
    (h1 : wtd (a.th t) = 0) : Fair M Ps { a with th := upd a.th t x } := by
  have e1 := sumOver_single hn ht (f := fun v => arr a.sh.gen (upd a.th t x v)) (g := fun v => arr a.sh.gen (a.th v))
    (fun v hv => by simp [hv])
  have e2 := sumOver_single hn ht (f := fun v => wtd (upd a.th t x v)) (g := fun v => wtd (a.th v))
    (fun v hv => by simp [hv])
  have hx1 : arr a.sh.gen (upd a.th t x t) = 0 := by rcases hx with rfl | rfl <;> simp [arr]
  have hx2 : wtd (upd a.th t x t) = 0 := by rcases hx with rfl | rfl <;> simp [wtd]
  simp only [hx1, hx2, h0, h1] at e1 e2
  have hexp := hF.exp
  have hcnt := hF.cnt
  refine ⟨fun u hu => ?_, fun u => ?_, ?_, ?_⟩
  · have : u ≠ t := by rintro rfl; exact hu ht
    simp only [upd_other _ _ this]; exact hF.only u hu
  · by_cases hut : u = t
    · subst hut; rcases hx with rfl | rfl <;> simp
    · simp only [upd_other _ _ hut]; exact hF.shape u
  · simp only; omega
  · simp only; omega

theorem fair_quiet {M : Int} {Ps : List Tid} {a : AbsSt} (hn : Ps.Nodup) (hw : a.Wf) (hF : Fair M Ps a) {t : Tid}
    {k : Op} (ht : a.th t = .ready k) {b : B} {ev : List Lin} {f : Fin Unit Op Res}
    (hb : (obj M).body t k a.sh = ⟨b, ev, [], f⟩) (hg : b.gen = a.sh.gen)
    (hsh : f = .next (.wait true a.sh.gen 1) ∨ f = .park () (.resume a.sh.gen) ∨ f = .ret .ok)
    (he : b.expected + arr a.sh.gen f.th = a.sh.expected + arr a.sh.gen (a.th t))
    (hc : b.count + wtd f.th = a.sh.count + wtd (a.th t)) : Fair M Ps (after (obj M) a t k) := by
  have htP : t ∈ Ps := by
    apply Decidable.byContradiction; intro h; have := hF.only t h; rw [ht] at this; cases this
  have hoth : ∀ u, u ≠ t → (after (obj M) a t k).th u = a.th u := by
    intro u hu
    rw [after_th hu]
    cases hx : a.th u with
    | parked c j =>
      have hm := (hw.mem c u).2 ⟨j, hx⟩
      have : u ∈ (after (obj M) a t k).wq c := by
        simp only [after, hb, List.foldl_nil]; rw [mem_enqueue]; exact Or.inl hm
      simp [settle, this]
    | _ => rfl
  have hself : (after (obj M) a t k).th t = f.th := by rw [after_self, hb]
  have hgen : (after (obj M) a t k).sh = b := by simp [after, hb]
  have e1 := sumOver_single hn htP (f := fun v => arr a.sh.gen ((after (obj M) a t k).th v))
    (g := fun v => arr a.sh.gen (a.th v)) (fun v hv => by simp [hoth v hv])
  have e2 := sumOver_single hn htP (f := fun v => wtd ((after (obj M) a t k).th v))
    (g := fun v => wtd (a.th v)) (fun v hv => by simp [hoth v hv])
  simp only [hself] at e1 e2
  have hexp := hF.exp
  have hcnt := hF.cnt
  refine ⟨fun u hu => ?_, fun u => ?_, ?_, ?_⟩
  · have : u ≠ t := by rintro rfl; exact hu htP
    rw [hoth u this]; exact hF.only u hu
  · rw [hgen, hg]
    by_cases hut : u = t
    · subst hut; rw [hself]; rcases hsh with rfl | rfl | rfl <;> simp [Fin.th]
    · rw [hoth u hut]; exact hF.shape u
  · rw [hgen, hg]; omega
  · rw [hgen]; omega

theorem fair_step (M : Int) (Ps : List Tid) (hn : Ps.Nodup) (hl : Ps.length = M) (a : AbsSt) (x : AAct Op) (a' : AbsSt)
    (es : Trace) (hw : a.Wf) (hF : Fair M Ps a) (hcl : ∀ t k, x = .call t k → t ∈ Ps ∧ k = .arriveWait)
    (hs : a.step (obj M) x = some (a', es)) : Fair M Ps a' ∧ ∀ t, Ev.ret t Res.threw ∉ es := by
  have hexp := hF.exp
  have hcnt := hF.cnt
  cases x with
  | call t k =>
    obtain ⟨htP, rfl⟩ := hcl t k rfl
    obtain ⟨ht, rfl, rfl⟩ := call_inv hs
    exact ⟨fair_upd hn hF htP (Or.inr rfl) (by simp [ht, arr]) (by simp [ht, wtd]), by simp⟩
  | leave t =>
    obtain ⟨v, ht, rfl, rfl⟩ := leave_inv hs
    have htP : t ∈ Ps := by
      apply Decidable.byContradiction; intro h; have := hF.only t h; rw [ht] at this; cases this
    refine ⟨fair_upd hn hF htP (Or.inl rfl) (by simp [ht, arr]) (by simp [ht, wtd]), ?_⟩
    have := hF.shape t
    rw [ht] at this
    have hv : v = .ok := by simpa using this
    simp [hv]
  | run t =>
    obtain ⟨k, ht, rfl, rfl⟩ := run_inv hs
    refine ⟨?_, by simp⟩
    have htP : t ∈ Ps := by
      apply Decidable.byContradiction; intro h; have := hF.only t h; rw [ht] at this; cases this
    have hshape := hF.shape t
    rw [ht] at hshape
    have hk : k = .arriveWait ∨ k = .wait true a.sh.gen 1 ∨ ∃ g, k = .resume g := by simpa using hshape
    rcases hk with rfl | rfl | ⟨g, rfl⟩
    · have h1 := sum_one hn (fun u => arr_le a.sh.gen (a.th u)) htP (by simp [ht, arr])
      have hc : ¬ a.sh.expected - (1 : Nat) < 0 := by omega
      have hb : (obj M).body t .arriveWait a.sh = ⟨{ a.sh with expected := a.sh.expected - (1 : Nat) },
        [.arrived t a.sh.gen 1], [], .next (.wait true a.sh.gen 1)⟩ := by simp only [obj, arriveBody, if_neg hc]
      exact fair_quiet hn hw hF ht hb rfl (Or.inl rfl) (by simp [ht, arr, Fin.th]) (by simp [ht, wtd, Fin.th])
    · have h1 := sum_one hn (fun u => wtd_le (a.th u)) htP (by simp [ht, wtd])
      have hcn : ¬ a.sh.count - (1 : Nat) < 0 := by omega
      by_cases hz : a.sh.count - (1 : Nat) = 0
      · have hb : (obj M).body t (.wait true a.sh.gen 1) a.sh = ⟨⟨M, M, a.sh.gen + 1⟩,
            [.waited t a.sh.gen 1, .released t a.sh.gen], [.all ()], .ret .ok⟩ := by
          simp only [obj]; rw [if_neg (by simp), if_neg hcn, if_pos hz]
        have hall : ∀ u, u ∈ Ps → u ≠ t → a.th u = .parked () (.resume a.sh.gen) := by
          intro u hu hut
          apply Decidable.byContradiction
          intro hne
          have hw0 : wtd (a.th u) = 0 := by
            rcases hF.shape u with h | h | h | h | ⟨g, h⟩ | h
            case inr.inr.inr.inl => exact absurd h hne
            all_goals simp [h, wtd]
          have := sum_two hn (fun u => wtd_le (a.th u)) htP hu hut (by simp [ht, wtd]) hw0
          omega
        have hwq : (after (obj M) a t (.wait true a.sh.gen 1)).wq = fun _ => [] := by
          funext c; simp [after, hb, notify, enqueue]
        have hth : ∀ u, u ≠ t → (after (obj M) a t (.wait true a.sh.gen 1)).th u = .idle ∨
            (after (obj M) a t (.wait true a.sh.gen 1)).th u = .ready (.resume a.sh.gen) := by
          intro u hut
          rw [after_th hut, hwq]
          by_cases hu : u ∈ Ps
          · right; rw [hall u hu hut]; simp [settle]
          · left; rw [hF.only u hu]; rfl
        have hself : (after (obj M) a t (.wait true a.sh.gen 1)).th t = .leaving .ok := by rw [after_self, hb]; rfl
        have hsh : (after (obj M) a t (.wait true a.sh.gen 1)).sh = ⟨M, M, a.sh.gen + 1⟩ := by simp [after, hb]
        have hall' : ∀ u, (after (obj M) a t (.wait true a.sh.gen 1)).th u = .idle ∨
            (after (obj M) a t (.wait true a.sh.gen 1)).th u = .ready (.resume a.sh.gen) ∨
            (after (obj M) a t (.wait true a.sh.gen 1)).th u = .leaving .ok := by
          intro u
          by_cases hut : u = t
          · subst hut; exact Or.inr (Or.inr hself)
          · rcases hth u hut with h | h
            · exact Or.inl h
            · exact Or.inr (Or.inl h)
        refine ⟨fun u hu => ?_, fun u => ?_, ?_, ?_⟩
        · have : u ≠ t := by rintro rfl; exact hu htP
          rw [after_th this, hF.only u hu]; rfl
        · rcases hall' u with h | h | h <;> simp [h]
        · rw [hsh, sumOver_zero]; · simp
          intro u _
          rcases hall' u with h | h | h <;> simp [h, arr]
        · rw [hsh, sumOver_zero]; · simp
          intro u _
          rcases hall' u with h | h | h <;> simp [h, wtd]
      · have hb : (obj M).body t (.wait true a.sh.gen 1) a.sh = ⟨{ a.sh with count := a.sh.count - (1 : Nat) },
            [.waited t a.sh.gen 1], [], .park () (.resume a.sh.gen)⟩ := by
          simp only [obj]; rw [if_neg (by simp), if_neg hcn, if_neg hz]
        exact fair_quiet hn hw hF ht hb rfl (Or.inr (Or.inl rfl)) (by simp [ht, arr, Fin.th])
          (by simp [ht, wtd, Fin.th])
    · have hb : (obj M).body t (.resume g) a.sh = ⟨a.sh, [.released t g], [], .ret .ok⟩ := rfl
      exact fair_quiet hn hw hF ht hb rfl (Or.inr (Or.inr rfl)) (by simp [ht, arr, Fin.th]) (by simp [ht, wtd, Fin.th])

theorem fair_init (M : Int) (Ps : List Tid) : Fair M Ps (Abs.init (B.init M)) := by
  refine ⟨by simp [Abs.init], by simp [Abs.init], ?_, ?_⟩
  · rw [sumOver_zero]; · simp [Abs.init, B.init]
    intro u _; rfl
  · rw [sumOver_zero]; · simp [Abs.init, B.init]
    intro u _; rfl

/-- C29. With exactly as many participants as the size, each doing nothing but `arrive_and_wait()` any number of times, no
call ever throws, in any phase. -/
theorem C29_exact_participants_never_throw (Ps : List Tid) (hn : Ps.Nodup) (as : List (Act Op)) (s : LowSt) (es : Trace)
    (h : runs (Low.step (obj Ps.length)) (Low.init (B.init Ps.length)) as = some (s, es))
    (hcl : ∀ t k, Ev.call t k ∈ es → t ∈ Ps ∧ k = .arriveWait) (t : Tid) : Ev.ret t Res.threw ∉ es := by
  obtain ⟨bs, hb⟩ := C22_critical_sections_atomic (obj Ps.length) _ as s es h
  suffices H : ∀ (bs : List (AAct Op)) (a a' : AbsSt) (es : Trace), a.Wf ∧ Fair Ps.length Ps a →
      runs (Abs.step (obj Ps.length)) a bs = some (a', es) →
      (∀ t k, Ev.call t k ∈ es → t ∈ Ps ∧ k = .arriveWait) → Ev.ret t Res.threw ∉ es from
    H bs _ _ es ⟨Abs.wf_init _, fair_init _ Ps⟩ hb hcl
  intro bs
  induction bs with
  | nil =>
    intro a a' es _ h _
    simp only [runs, Option.some.injEq, Prod.mk.injEq] at h
    rw [← h.2]; simp
  | cons x bs ih =>
    intro a a' es hI h hcl
    obtain ⟨a1, e1, e2, h1, h2, rfl⟩ := runs_cons h
    have hx : ∀ t k, x = .call t k → t ∈ Ps ∧ k = .arriveWait := by
      rintro t k rfl
      obtain ⟨_, _, rfl⟩ := call_inv h1
      exact hcl t k (by simp)
    have := fair_step _ Ps hn rfl a x a1 e1 hI.1 hI.2 hx h1
    rw [List.mem_append, not_or]
    exact ⟨this.2 t, ih a1 a' e2 ⟨Abs.wf_step a x a1 e1 hI.1 h1, this.1⟩ h2
      (fun t k hk => hcl t k (List.mem_append_right _ hk))⟩

/-- C29. And they are never all blocked: if nobody inside can make a step, some participant is outside (still computing,
not waiting). -/
theorem C29_exact_participants_never_all_blocked (Ps : List Tid) (hn : Ps.Nodup) (hne : Ps ≠ []) (as : List (Act Op))
    (s : LowSt) (es : Trace) (h : runs (Low.step (obj Ps.length)) (Low.init (B.init Ps.length)) as = some (s, es))
    (hcl : ∀ t k, Ev.call t k ∈ es → t ∈ Ps ∧ k = .arriveWait)
    (hst : ∀ t, s.step (obj Ps.length) (.run t) = none) : ∃ t ∈ Ps, s.pc t = .idle := by
  have hF := abs_inv_cl (obj Ps.length) (fun t k => t ∈ Ps ∧ k = .arriveWait) _ as s es h hcl (Fair Ps.length Ps)
    (fair_init _ Ps) (fun a x a' es hw hF hc hs => (fair_step _ Ps hn rfl a x a' es hw hF hc hs).1)
  have hlen : 0 < Ps.length := List.length_pos_iff.2 hne
  obtain ⟨q, hq, hR⟩ := sim_reach Ps.length (by omega) as s es h
    (fun t k hk => by rw [(hcl t k hk).2]; exact trivial)
  apply Decidable.byContradiction
  intro hno
  have hin : ∀ t ∈ Ps, wtd (s.abs.th t) = 1 := by
    intro t ht
    rcases C22_stuck_only_parked (obj Ps.length) _ s ⟨as, es, h⟩ hst t with ⟨hh, _⟩ | ⟨c, j, _, _, _, hth, _⟩
    · exact absurd ⟨t, ht, hh⟩ hno
    · rw [hth]; rfl
  have hcnt := hF.cnt
  rw [sumOver_congr (g := fun _ => 1) (fun u hu => hin u hu), sumOver_const] at hcnt
  have := hR.range
  omega

example : ((runs (Low.step (obj 2)) (Low.init (B.init 2)) ([.call 1 .arriveWait] ++ List.replicate 10 (.run 1) ++
    [.call 2 .arriveWait] ++ List.replicate 11 (.run 2) ++ List.replicate 4 (.run 1))).map
    (fun p => (p.1.sh, p.1.pc 1, p.1.pc 2))) = some (⟨2, 2, 1⟩, .idle, .idle) := by decide

/-! ## C30 -/

/-- Clients that use only `arrive_and_wait` and `arrive_and_drop`: what is missing is at least the arrivals still
accepted, plus the coroutines between their arrival and their wait, plus `d` dropped ones. (Concerns co_barrier.cpp:7-61.) -/
structure Dead (d : Int) (a : AbsSt) : Prop where
  exp : 0 ≤ a.sh.expected
  tok : ∀ t s g n, a.th t = .ready (.wait s g n) → s = true ∧ g = a.sh.gen ∧ n = 1
  noarr : ∀ t n, a.th t ≠ .ready (.arrive n)
  park : ∀ t c k, a.th t = .parked c k → ∃ g, k = .resume g
  deficit : ∀ L : List Tid, L.Nodup → (∀ u ∈ L, ∃ s g n, a.th u = .ready (.wait s g n)) →
    a.sh.expected + L.length + d ≤ a.sh.count

theorem dead_quiet {M d d' : Int} {a : AbsSt} {t : Tid} {k : Op} (hD : Dead d a)
    (hg : ((obj M).body t k a.sh).sh.gen = a.sh.gen) (he : 0 ≤ ((obj M).body t k a.sh).sh.expected)
    (hf : (∃ r, ((obj M).body t k a.sh).fin = .ret r) ∨ (∃ g, ((obj M).body t k a.sh).fin = .park () (.resume g)) ∨
      ((obj M).body t k a.sh).fin = .next (.wait true a.sh.gen 1))
    (hd : ∀ L : List Tid, L.Nodup → (∀ u ∈ L, ∃ s g n, (after (obj M) a t k).th u = .ready (.wait s g n)) →
      ((obj M).body t k a.sh).sh.expected + L.length + d' ≤ ((obj M).body t k a.sh).sh.count) :
    Dead d' (after (obj M) a t k) := by
  have hgen : (after (obj M) a t k).sh.gen = a.sh.gen := hg
  refine ⟨he, fun u s g n hu => ?_, fun u n hu => ?_, fun u c j hu => ?_, hd⟩
  · rw [hgen]
    by_cases hut : u = t
    · subst hut
      rw [after_self] at hu
      rcases hf with ⟨r, h⟩ | ⟨g, h⟩ | h <;> rw [h] at hu <;> cases hu
      simp
    · rcases after_ready_inv hut hu with h | ⟨h, _⟩
      · exact hD.tok u s g n h
      · obtain ⟨g', hg'⟩ := hD.park u _ _ h; cases hg'
  · by_cases hut : u = t
    · subst hut
      rw [after_self] at hu
      rcases hf with ⟨r, h⟩ | ⟨g, h⟩ | h <;> rw [h] at hu <;> cases hu
    · rcases after_ready_inv hut hu with h | ⟨h, _⟩
      · exact hD.noarr u n h
      · obtain ⟨g', hg'⟩ := hD.park u _ _ h; cases hg'
  · by_cases hut : u = t
    · subst hut
      rw [after_self] at hu
      rcases hf with ⟨r, h⟩ | ⟨g, h⟩ | h <;> rw [h] at hu <;> cases hu
      exact ⟨_, rfl⟩
    · exact hD.park u c j (after_parked hut hu).1

/-- A coroutine at its wait after the section was there before, unless it is the one that executed the section. -/
theorem wait_before {M d : Int} {a : AbsSt} {t u : Tid} {k : Op} (hD : Dead d a) (hut : u ≠ t)
    (h : ∃ s g n, (after (obj M) a t k).th u = .ready (.wait s g n)) : ∃ s g n, a.th u = .ready (.wait s g n) := by
  obtain ⟨s, g, n, h⟩ := h
  rcases after_ready_inv hut h with h | ⟨h, _⟩
  · exact ⟨s, g, n, h⟩
  · obtain ⟨g', hg'⟩ := hD.park u _ _ h; cases hg'

/-- Steps of such clients: a phase completes only if nobody dropped; each drop adds one to the deficit. -/
theorem dead_step (M d : Int) (hM : 0 ≤ M) (hd : 0 ≤ d) (a : AbsSt) (x : AAct Op) (a' : AbsSt) (es : Trace)
    (hD : Dead d a) (hcl : ∀ t k, x = .call t k → k = .arriveWait ∨ k = .arriveDrop)
    (hs : a.step (obj M) x = some (a', es)) :
    (Dead d a' ∧ ((∃ t g, es = [.lin (.dropped t g)]) → Dead (d + 1) a')) ∧
    (1 ≤ d → a'.sh.gen = a.sh.gen) := by
  cases x with
  | call t k =>
    have hk := hcl t k rfl
    obtain ⟨ht, rfl, rfl⟩ := call_inv hs
    refine ⟨⟨⟨hD.exp, fun u s g n hu => ?_, fun u n hu => ?_, fun u c j hu => ?_, fun L h1 h2 => ?_⟩, ?_⟩, ?_⟩
    · by_cases hut : u = t
      · subst hut; rcases hk with rfl | rfl <;> simp at hu
      · simp only [upd_other _ _ hut] at hu; exact hD.tok u s g n hu
    · by_cases hut : u = t
      · subst hut; rcases hk with rfl | rfl <;> simp at hu
      · simp only [upd_other _ _ hut] at hu; exact hD.noarr u n hu
    · by_cases hut : u = t
      · subst hut; simp at hu
      · simp only [upd_other _ _ hut] at hu; exact hD.park u c j hu
    · refine hD.deficit L h1 (fun u hu => ?_)
      have := h2 u hu
      by_cases hut : u = t
      · subst hut; rcases hk with rfl | rfl <;> simp at this
      · simpa only [upd_other _ _ hut] using this
    · rintro ⟨t', g', h⟩; simp at h
    · intro _; simp
  | leave t =>
    obtain ⟨v, ht, rfl, rfl⟩ := leave_inv hs
    refine ⟨⟨⟨hD.exp, fun u s g n hu => ?_, fun u n hu => ?_, fun u c j hu => ?_, fun L h1 h2 => ?_⟩, ?_⟩, ?_⟩
    · by_cases hut : u = t
      · subst hut; simp at hu
      · simp only [upd_other _ _ hut] at hu; exact hD.tok u s g n hu
    · by_cases hut : u = t
      · subst hut; simp at hu
      · simp only [upd_other _ _ hut] at hu; exact hD.noarr u n hu
    · by_cases hut : u = t
      · subst hut; simp at hu
      · simp only [upd_other _ _ hut] at hu; exact hD.park u c j hu
    · refine hD.deficit L h1 (fun u hu => ?_)
      have := h2 u hu
      by_cases hut : u = t
      · subst hut; simp at this
      · simpa only [upd_other _ _ hut] using this
    · rintro ⟨t', g', h⟩; simp at h
    · intro _; simp
  | run t =>
    obtain ⟨k, ht, rfl, rfl⟩ := run_inv hs
    -- lists without the executing coroutine
    have hsub : ∀ L : List Tid, L.Nodup →
        (∀ u ∈ L, ∃ s g n, (after (obj M) a t k).th u = .ready (.wait s g n)) →
        (¬ ∃ s g n, (after (obj M) a t k).th t = .ready (.wait s g n)) →
        a.sh.expected + L.length + d ≤ a.sh.count ∧ t ∉ L ∧ ∀ u ∈ L, ∃ s g n, a.th u = .ready (.wait s g n) := by
      intro L h1 h2 h3
      have htL : t ∉ L := fun h => h3 (h2 t h)
      have h4 : ∀ u ∈ L, ∃ s g n, a.th u = .ready (.wait s g n) := fun u hu =>
        wait_before hD (by rintro rfl; exact htL hu) (h2 u hu)
      exact ⟨hD.deficit L h1 h4, htL, h4⟩
    have hexp := hD.exp
    cases k with
    | arrive n => exact absurd ht (hD.noarr t n)
    | arriveWait =>
      by_cases hc : a.sh.expected - (1 : Nat) < 0
      · have hb : (obj M).body t .arriveWait a.sh = ⟨a.sh, [.refused t], [], .ret .threw⟩ := by
          simp only [obj, arriveBody, if_pos hc]
        have hret : ¬ ∃ s g n, (after (obj M) a t .arriveWait).th t = .ready (.wait s g n) := by
          rw [after_self, hb]; rintro ⟨s, g, n, h⟩; cases h
        refine ⟨⟨dead_quiet hD (by rw [hb]) (by rw [hb]; exact hexp) (Or.inl ⟨_, by rw [hb]⟩) ?_, ?_⟩, ?_⟩
        · intro L h1 h2; rw [hb]; exact (hsub L h1 h2 hret).1
        · rw [hb]; rintro ⟨t', g', h⟩; simp at h
        · intro _; simp [after, hb]
      · have hb : (obj M).body t .arriveWait a.sh = ⟨{ a.sh with expected := a.sh.expected - (1 : Nat) },
            [.arrived t a.sh.gen 1], [], .next (.wait true a.sh.gen 1)⟩ := by simp only [obj, arriveBody, if_neg hc]
        refine ⟨⟨dead_quiet hD (by rw [hb]) (by rw [hb]; simp only; omega) (Or.inr (Or.inr (by rw [hb]))) ?_, ?_⟩, ?_⟩
        · intro L h1 h2
          rw [hb]
          obtain ⟨L', i1, i2, i3⟩ := drop_one h1 h2 t
          have := hD.deficit L' i1 (fun u hu => wait_before hD (i2 u hu).2 (i2 u hu).1)
          simp only
          omega
        · rw [hb]; rintro ⟨t', g', h⟩; simp at h
        · intro _; simp [after, hb]
    | arriveDrop =>
      by_cases hc : a.sh.expected - (1 : Nat) < 0
      · have hb : (obj M).body t .arriveDrop a.sh = ⟨a.sh, [.refused t], [], .ret .threw⟩ := by
          simp only [obj, arriveBody, if_pos hc]
        have hret : ¬ ∃ s g n, (after (obj M) a t .arriveDrop).th t = .ready (.wait s g n) := by
          rw [after_self, hb]; rintro ⟨s, g, n, h⟩; cases h
        refine ⟨⟨dead_quiet hD (by rw [hb]) (by rw [hb]; exact hexp) (Or.inl ⟨_, by rw [hb]⟩) ?_, ?_⟩, ?_⟩
        · intro L h1 h2; rw [hb]; exact (hsub L h1 h2 hret).1
        · rw [hb]; rintro ⟨t', g', h⟩; simp at h
        · intro _; simp [after, hb]
      · have hb : (obj M).body t .arriveDrop a.sh = ⟨{ a.sh with expected := a.sh.expected - (1 : Nat) },
            [.dropped t a.sh.gen], [], .ret .ok⟩ := by simp only [obj, arriveBody, if_neg hc]
        have hret : ¬ ∃ s g n, (after (obj M) a t .arriveDrop).th t = .ready (.wait s g n) := by
          rw [after_self, hb]; rintro ⟨s, g, n, h⟩; cases h
        refine ⟨⟨dead_quiet hD (by rw [hb]) (by rw [hb]; simp only; omega) (Or.inl ⟨_, by rw [hb]⟩) ?_, ?_⟩, ?_⟩
        · intro L h1 h2
          have := (hsub L h1 h2 hret).1
          rw [hb]; simp only; omega
        · intro _
          refine dead_quiet hD (by rw [hb]) (by rw [hb]; simp only; omega) (Or.inl ⟨_, by rw [hb]⟩) ?_
          intro L h1 h2
          have := (hsub L h1 h2 hret).1
          rw [hb]; simp only; omega
        · intro _; simp [after, hb]
    | resume g =>
      have hb : (obj M).body t (.resume g) a.sh = ⟨a.sh, [.released t g], [], .ret .ok⟩ := rfl
      have hret : ¬ ∃ s g' n, (after (obj M) a t (.resume g)).th t = .ready (.wait s g' n) := by
        rw [after_self, hb]; rintro ⟨s, g, n, h⟩; cases h
      refine ⟨⟨dead_quiet hD (by rw [hb]) (by rw [hb]; exact hexp) (Or.inl ⟨_, by rw [hb]⟩) ?_, ?_⟩, ?_⟩
      · intro L h1 h2; rw [hb]; exact (hsub L h1 h2 hret).1
      · rw [hb]; rintro ⟨t', g', h⟩; simp at h
      · intro _; simp [after, hb]
    | wait same g n =>
      obtain ⟨rfl, rfl, rfl⟩ := hD.tok t same g n ht
      have hone := hD.deficit [t] (by simp) (fun u hu => by simp only [List.mem_singleton] at hu; subst hu; exact ⟨_, _, _, ht⟩)
      simp only [List.length_cons, List.length_nil] at hone
      have hcn : ¬ a.sh.count - (1 : Nat) < 0 := by omega
      by_cases hz : a.sh.count - (1 : Nat) = 0
      · have hb : (obj M).body t (.wait true a.sh.gen 1) a.sh = ⟨⟨M, M, a.sh.gen + 1⟩,
            [.waited t a.sh.gen 1, .released t a.sh.gen], [.all ()], .ret .ok⟩ := by
          simp only [obj]; rw [if_neg (by simp), if_neg hcn, if_pos hz]
        have hd0 : d = 0 := by omega
        have hnone : ∀ u s g n, (after (obj M) a t (.wait true a.sh.gen 1)).th u ≠ .ready (.wait s g n) := by
          intro u s g n hu
          by_cases hut : u = t
          · subst hut; rw [after_self, hb] at hu; cases hu
          · have hu' := wait_before hD hut ⟨s, g, n, hu⟩
            have := hD.deficit [u, t] (by simp [hut]) (fun v hv => by
              rcases List.mem_cons.1 hv with rfl | hv
              · exact hu'
              · simp only [List.mem_singleton] at hv; subst hv; exact ⟨_, _, _, ht⟩)
            simp only [List.length_cons, List.length_nil] at this
            omega
        have hsh : (after (obj M) a t (.wait true a.sh.gen 1)).sh = ⟨M, M, a.sh.gen + 1⟩ := by simp [after, hb]
        refine ⟨⟨⟨?_, fun u s g n hu => absurd hu (hnone u s g n), fun u n hu => ?_, fun u c j hu => ?_,
          fun L h1 h2 => ?_⟩, ?_⟩, ?_⟩
        · rw [hsh]; exact hM
        · by_cases hut : u = t
          · subst hut; rw [after_self, hb] at hu; cases hu
          · rcases after_ready_inv hut hu with h | ⟨h, _⟩
            · exact hD.noarr u n h
            · obtain ⟨g', hg'⟩ := hD.park u _ _ h; cases hg'
        · by_cases hut : u = t
          · subst hut; rw [after_self, hb] at hu; cases hu
          · exact hD.park u c j (after_parked hut hu).1
        · cases L with
          | nil => rw [hsh]; simp; omega
          | cons u L =>
            obtain ⟨s, g, n, hu⟩ := h2 u (by simp)
            exact absurd hu (hnone u s g n)
        · rw [hb]; rintro ⟨t', g', h⟩; simp at h
        · intro h1; omega
      · have hb : (obj M).body t (.wait true a.sh.gen 1) a.sh = ⟨{ a.sh with count := a.sh.count - (1 : Nat) },
            [.waited t a.sh.gen 1], [], .park () (.resume a.sh.gen)⟩ := by
          simp only [obj]; rw [if_neg (by simp), if_neg hcn, if_neg hz]
        have hret : ¬ ∃ s g' n, (after (obj M) a t (.wait true a.sh.gen 1)).th t = .ready (.wait s g' n) := by
          rw [after_self, hb]; rintro ⟨s, g, n, h⟩; cases h
        refine ⟨⟨dead_quiet hD (by rw [hb]) (by rw [hb]; exact hexp) (Or.inr (Or.inl ⟨_, by rw [hb]⟩)) ?_, ?_⟩, ?_⟩
        · intro L h1 h2
          obtain ⟨_, htL, h4⟩ := hsub L h1 h2 hret
          have := hD.deficit (t :: L) (by simp [htL, h1]) (by
            intro u hu
            rcases List.mem_cons.1 hu with rfl | hu
            · exact ⟨_, _, _, ht⟩
            · exact h4 u hu)
          simp only [List.length_cons] at this
          rw [hb]; simp only; omega
        · rw [hb]; rintro ⟨t', g', h⟩; simp at h
        · intro _; simp [after, hb]

theorem dropped_inv (M : Int) (a : AbsSt) (x : AAct Op) (a' : AbsSt) (t : Tid) (g : Int) (p q : Trace)
    (hs : a.step (obj M) x = some (a', p ++ .lin (.dropped t g) :: q)) :
    p = [] ∧ q = [] ∧ g = a.sh.gen ∧ a'.sh.gen = g := by
  cases x with
  | call u k => obtain ⟨_, _, he⟩ := call_inv hs; cases p <;> simp at he
  | leave u => obtain ⟨v, _, _, he⟩ := leave_inv hs; cases p <;> simp at he
  | run u =>
    obtain ⟨k, _, rfl, he⟩ := run_inv hs
    have hmem : Ev.lin (.dropped t g) ∈ ((obj M).body u k a.sh).ev.map (Ev.lin (K := Op) (V := Res)) := by
      rw [← he]; simp
    cases k with
    | arriveDrop =>
      by_cases hc : a.sh.expected - (1 : Nat) < 0
      · simp only [obj, arriveBody, if_pos hc] at hmem; simp at hmem
      · have hb : (obj M).body u .arriveDrop a.sh = ⟨{ a.sh with expected := a.sh.expected - (1 : Nat) },
            [.dropped u a.sh.gen], [], .ret .ok⟩ := by simp only [obj, arriveBody, if_neg hc]
        rw [hb] at he
        cases p with
        | nil =>
          simp only [List.nil_append, List.map_cons, List.map_nil, List.cons.injEq, Ev.lin.injEq, Lin.dropped.injEq] at he
          exact ⟨rfl, he.2, he.1.2, by rw [he.1.2]; simp [after, hb]⟩
        | cons _ p => simp at he
    | arrive n =>
      simp only [obj, arriveBody] at hmem
      split at hmem <;> simp at hmem
    | arriveWait =>
      simp only [obj, arriveBody] at hmem
      split at hmem <;> simp at hmem
    | resume g => simp [obj] at hmem
    | wait same g n =>
      simp only [obj] at hmem
      split at hmem
      · simp at hmem
      · split at hmem
        · simp at hmem
        · split at hmem <;> simp at hmem

theorem waitedIn_append (g : Int) (es fs : Trace) : waitedIn g (es ++ fs) = waitedIn g es + waitedIn g fs := by
  simp [waitedIn]

theorem waitedIn_nonneg (g : Int) (es : Trace) : 0 ≤ waitedIn g es := by
  induction es with
  | nil => simp [waitedIn]
  | cons e es ih =>
    have h1 := waitedIn_append g [e] es
    have h2 : 0 ≤ waitedIn g [e] := by
      simp only [waitedIn, List.map_cons, List.map_nil, List.sum_cons, List.sum_nil]
      split
      · split <;> omega
      · omega
    simp only [List.cons_append, List.nil_append] at h1
    omega

/-- C30 is false of the code, for every size and in every execution: with clients that use `arrive_and_wait` and
`arrive_and_drop`, once a participant has dropped in phase `g` that phase never completes, and nobody waiting in it ever
goes on. (`arrive_and_drop`, co_barrier.cpp:58-61, registers an arrival but no `wait`, and nothing lowers `max__`.) -/
theorem C30_drop_blocks_barrier_negation (M : Int) (hM : 0 < M) (as : List (Act Op)) (s : LowSt) (es pre post : Trace)
    (t : Tid) (g : Int) (h : runs (Low.step (obj M)) (Low.init (B.init M)) as = some (s, es))
    (hcl : ∀ t k, Ev.call t k ∈ es → k = .arriveWait ∨ k = .arriveDrop)
    (hes : es = pre ++ .lin (.dropped t g) :: post) :
    s.sh.gen = g ∧ ∀ u, Ev.lin (.released u g) ∉ es := by
  have hcl' : Clients es := fun t k hk => by rcases hcl t k hk with rfl | rfl <;> trivial
  obtain ⟨bs, hb⟩ := C22_critical_sections_atomic (obj M) _ as s es h
  rw [hes] at hb
  obtain ⟨b1, x, b2, s1, s2, p1, p2, q1, q2, _, hr1, hx, hr2, hp, hq⟩ := runs_split bs _ _ _ _ _ hb
  obtain ⟨rfl, rfl, hg, hg2⟩ := dropped_inv M s1 x s2 t g p2 q1 hx
  simp only [List.append_nil, List.nil_append] at hp hq
  subst hp; subst hq
  have hstepcl : ∀ (es' : Trace), (∀ e ∈ es', ∀ t k, e = Ev.call t k → k = .arriveWait ∨ k = .arriveDrop) →
      ∀ (a : AbsSt) (y : AAct Op) (a' : AbsSt), a.step (obj M) y = some (a', es') →
      ∀ t k, y = .call t k → k = .arriveWait ∨ k = .arriveDrop := by
    rintro es' hes' a y a' hs t k rfl
    obtain ⟨_, _, rfl⟩ := call_inv hs
    exact hes' _ (by simp) t k rfl
  have hsub : ∀ e ∈ es, ∀ t k, e = Ev.call t k → k = .arriveWait ∨ k = .arriveDrop := by
    rintro e he t k rfl; exact hcl t k he
  have hD1 : Dead 0 s1 := by
    refine runs_inv_ev (Dead 0) (fun e => ∀ t k, e = Ev.call t k → k = .arriveWait ∨ k = .arriveDrop)
      (fun a y a' es' hI hP hs => (dead_step M 0 (by omega) (by omega) a y a' es' hI (hstepcl es' hP a y a' hs) hs).1.1)
      b1 _ _ pre ?_ hr1 (fun e he => hsub e (by rw [hes]; exact List.mem_append_left _ he))
    refine ⟨by simp only [Abs.init, B.init]; omega, by simp [Abs.init], by simp [Abs.init], by simp [Abs.init], ?_⟩
    intro L _ h2
    cases L with
    | nil => simp [Abs.init, B.init]
    | cons u L => obtain ⟨_, _, _, hu⟩ := h2 u (by simp); simp [Abs.init] at hu
  have hD2 : Dead 1 s2 := by
    have := (dead_step M 0 (by omega) (by omega) s1 x s2 _ hD1 (hstepcl _ (by simp) s1 x s2 hx) hx).1.2 ⟨t, g, rfl⟩
    simpa using this
  have hD3 := runs_inv_ev (fun a => Dead 1 a ∧ a.sh.gen = g)
    (fun e => ∀ t k, e = Ev.call t k → k = .arriveWait ∨ k = .arriveDrop)
    (fun a y a' es' hI hP hs => by
      have := dead_step M 1 (by omega) (by omega) a y a' es' hI.1 (hstepcl es' hP a y a' hs) hs
      exact ⟨this.1.1, by rw [this.2 (by omega)]; exact hI.2⟩)
    b2 _ _ post ⟨hD2, hg2⟩ hr2 (fun e he => hsub e (by rw [hes]; exact List.mem_append_right _ (List.mem_cons_of_mem _ he)))
  have hgen : s.sh.gen = g := hD3.2
  refine ⟨hgen, fun u hu => ?_⟩
  obtain ⟨l1, l2, hl⟩ := List.append_of_mem hu
  obtain ⟨q, hqq, hR⟩ := sim_reach M hM as s es h hcl'
  have hA := acct_spec M hM es q hqq
  have hph : q.phase = g := by rw [hR.phase]; exact hgen
  have hrange := hA.range
  have h1 := C28_no_early_release M hM as s es l1 l2 u g h hcl' hl (by omega)
  have h2 := hA.now
  rw [hph, hl, waitedIn_append, h1] at h2
  have h3 := waitedIn_nonneg g (Ev.lin (Lin.released u g) :: l2)
  omega

/-- Two participants, one drops, the other waits: nobody inside can make a step, although all remaining participants have
arrived. -/
example : ((runs (Low.step (obj 2)) (Low.init (B.init 2)) ([.call 1 .arriveDrop] ++ List.replicate 3 (.run 1) ++
    [.call 2 .arriveWait] ++ List.replicate 10 (.run 2))).map
    (fun p => (p.1.sh, p.1.pc 1, p.1.pc 2, (p.1.step (obj 2) (.run 2)).isNone))) =
    some (⟨0, 1, 0⟩, .idle, .pYield () (.resume 0), true) := by decide

/-- C30, what does hold: `arrive_and_drop()` never waits for anything but the mutex. Missing: that the phase then needs one
participant less (false, see above). -/
theorem C30_drop_does_not_wait_partial (M : Int) (hM : 0 < M) (as : List (Act Op)) (s : LowSt) (es : Trace)
    (h : runs (Low.step (obj M)) (Low.init (B.init M)) as = some (s, es)) (hcl : Clients es) (t : Tid) :
    s.abs.th t ≠ .parked () .arriveDrop := by
  obtain ⟨q, _, hR⟩ := sim_reach M hM as s es h hcl
  intro hp
  cases hR.kind t _ hp

end Verif.Barrier
