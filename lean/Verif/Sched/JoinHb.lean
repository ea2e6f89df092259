import Verif.Sched.Publish
import Verif.Monitor.VisibleObjs

/-!
# C131: who has waited for coroutines sees everything they did

Any number of coroutines (and threads of the program, which are like coroutines that do not end here) that access data and wait for each other,
with and without time-outs. For each coroutine there is an instance of the model of `Verif/Sched/Publish.lean`: its state's lock, the flags
of those who wait for it, its end. The data are what the program accesses; the result of a coroutine, which it writes before it ends
(co_ctx.cpp:69, 73) and which is read after `wait` returned, is among them.

Simplified as there: the locks left out can only order more, and the one who ends may wake anybody.
-/

namespace Verif.JoinHb
open Verif.Hb Verif.Prog Verif.Publish

/-- The state: what belongs to the end of each coroutine; the wait call each coroutine is in; of a wait call `n`, who made it and for whom
(co_env.cpp:98, 153); ghost: of whom does `d` know that it ended, because it waited for it or for somebody who knew. -/
structure JSt where
  inst : Nat → PSt
  busy : Nat → Option Nat
  own : Nat → Option (Nat × Nat)
  knows : Nat → Nat → Bool

/-- Nobody has done anything; not in the library. (Concerns co_env.cpp:98-186, co_ctx.cpp:69-82.) -/
def JSt.init : JSt := ⟨fun _ => PSt.init, fun _ => none, fun _ => none, fun _ _ => false⟩

/-- Actions: coroutine `d` reads or writes data `x`; it is at its end and makes the next step (towards the wait call `m`); it calls `wait` or
`wait_for` on `k`, as call number `n`; it makes the next step in its wait call; the timer of the wait call `n` makes its next step. (Concerns co_env.cpp:98-186, co_ctx.cpp:69-82.) -/
inductive JAct (X : Type)
  | acc (d : Nat) (x : X) (w : Bool)
  | fin (d m : Nat)
  | call (d k n : Nat) (timed : Bool)
  | run (d : Nat)
  | tick (n : Nat)
  deriving DecidableEq, Repr

/-- The operations on the locks of coroutine `k`, done by the agent `ag` (of `Verif/Sched/Publish.lean`; it does no others here). (Concerns co_env.cpp:98-186, co_ctx.cpp:69-82.) -/
def lift {X : Type} (ag k : Nat) (e : Tr PLk Unit) : Tr (Nat × PLk) X :=
  e.filterMap fun p => match p.2 with
    | .acq l => some (ag, .acq (k, l))
    | .rel l => some (ag, .rel (k, l))
    | _ => none

/-- After a step of wait call `n` of `d` for `k`: has it returned, because `k` has ended (co_env.cpp:150-151, 185-186), or because the time is
over (co_env.cpp:144-148)? -/
def JSt.back (s : JSt) (d k n : Nat) : JSt :=
  match (s.inst k).w n with
  | .read => { s with busy := upd s.busy d none, knows := upd s.knows d fun x => s.knows d x || x == k || s.knows k x }
  | .gone => { s with busy := upd s.busy d none }
  | _ => s

variable {X : Type}

/-- One step. Agent `2 d` is coroutine `d`, agent `2 n + 1` is who runs the callback of the timer of wait call `n`. Nobody waits for itself
(co_env.cpp:100-103, 155-158); who is at its end does nothing else (co_ctx.cpp:75-82). -/
def jstep (s : JSt) : JAct X → Option (JSt × Tr (Nat × PLk) X)
  | .acc d x w => if s.busy d = none ∧ (s.inst d).f = .body then some (s, [(2 * d, if w then .wr x else .rd x)]) else none
  | .fin d m =>
    if s.busy d = none then
      match pstep (s.inst d) (.fin m) with
      | some (i, e) => some ({ s with inst := upd s.inst d i }, lift (2 * d) d e)
      | none => none
    else none
  | .call d k n timed =>
    if s.busy d = none ∧ (s.inst d).f = .body ∧ s.own n = none ∧ d ≠ k then
      match pstep (s.inst k) (.call n timed) with
      | some (i, _) => some ({ s with inst := upd s.inst k i, busy := upd s.busy d (some n), own := upd s.own n (some (d, k)) }, [])
      | none => none
    else none
  | .run d =>
    match s.busy d with
    | none => none
    | some n =>
      match s.own n with
      | none => none
      | some (_, k) =>
        match pstep (s.inst k) (.run n) with
        | some (i, e) => some (({ s with inst := upd s.inst k i } : JSt).back d k n, lift (2 * d) k e)
        | none => none
  | .tick n =>
    match s.own n with
    | none => none
    | some (_, k) =>
      match pstep (s.inst k) (.tick n) with
      | some (i, e) => some ({ s with inst := upd s.inst k i }, lift (2 * n + 1) k e)
      | none => none

/-! ## One instance -/

/-- Who does it, by the action. (Concerns co_env.cpp:98-186, co_ctx.cpp:69-82.) -/
def agentOf : PAct → Nat
  | .write => 0
  | .fin _ => 0
  | .call n _ => wAg n
  | .run n => wAg n
  | .tick n => tAg n

theorem step_agent (s s' : PSt) (a : PAct) (e : Tr PLk Unit) (hs : pstep s a = some (s', e)) : ∀ p ∈ e, p.1 = agentOf a := by
  cases a with
  | write => simp only [pstep] at hs; split at hs <;> cases hs; simp [agentOf]
  | fin d => simp only [pstep] at hs; split at hs <;> (try split at hs) <;> cases hs <;> simp [agentOf]
  | call d b => simp only [pstep] at hs; split at hs <;> cases hs; simp
  | run d => simp only [pstep] at hs; split at hs <;> (try split at hs) <;> cases hs <;> simp [agentOf]
  | tick d => simp only [pstep] at hs; split at hs <;> (try split at hs) <;> (try split at hs) <;> cases hs <;> simp [agentOf]

/-- Who may have the lock of a flag. (Concerns co_env.cpp:98-186, co_ctx.cpp:69-82.) -/
def KInv (s : PSt) : Prop := ∀ m a, s.lk (.flag m) = some a → a = 0 ∨ a = wAg m ∨ a = tAg m

theorem kinv_step (s s' : PSt) (a : PAct) (e : Tr PLk Unit) (h : KInv s) (hs : pstep s a = some (s', e)) : KInv s' := by
  unfold KInv at h ⊢
  cases a with
  | write => simp only [pstep] at hs; split at hs <;> cases hs; assumption
  | fin d =>
    simp only [pstep] at hs
    split at hs <;> (try split at hs) <;> cases hs <;> (try simp only [PSt.take, PSt.give]) <;> grind
  | call d b => simp only [pstep] at hs; split at hs <;> cases hs; assumption
  | run d =>
    simp only [pstep] at hs
    split at hs <;> (try split at hs) <;> cases hs <;> (try simp only [PSt.take, PSt.give]) <;> grind
  | tick d =>
    simp only [pstep] at hs
    split at hs <;> (try split at hs) <;> (try split at hs) <;> cases hs <;> (try simp only [PSt.take, PSt.give]) <;> grind

/-- What the steps do to the program counters. -/
theorem step_pcs (s s' : PSt) (a : PAct) (e : Tr PLk Unit) (hs : pstep s a = some (s', e)) :
    (s'.f ≠ s.f → ∃ m, a = .fin m) ∧ (∀ n, s'.w n ≠ .out → s.w n ≠ .out ∨ ∃ t, a = .call n t) := by
  cases a with
  | write => simp only [pstep] at hs; split at hs <;> cases hs; simp
  | fin d => simp only [pstep] at hs; split at hs <;> (try split at hs) <;> cases hs <;> simp [PSt.take, PSt.give]
  | call d b =>
    simp only [pstep] at hs; split at hs <;> cases hs
    refine ⟨fun h => absurd rfl h, fun n hn => ?_⟩
    by_cases h : n = d
    · subst h; exact .inr ⟨b, rfl⟩
    · change upd s.w d .st n ≠ .out at hn
      rw [upd_apply, if_neg h] at hn; exact .inl hn
  | run d =>
    simp only [pstep] at hs
    split at hs <;> (try split at hs) <;> cases hs <;> (try simp only [PSt.take, PSt.give]) <;> grind
  | tick d =>
    simp only [pstep] at hs
    split at hs <;> (try split at hs) <;> (try split at hs) <;> cases hs <;> (try simp only [PSt.take, PSt.give]) <;> grind

/-! ## The invariant -/

/-- The agent of the trace that the agent `a` of the instance of `k` is. (Concerns co_env.cpp:98-186, co_ctx.cpp:69-82.) -/
def ga (own : Nat → Option (Nat × Nat)) (k a : Nat) : Nat :=
  if a = 0 then 2 * k else if a % 2 = 1 then 2 * ((own (a / 2)).elim 0 (·.1)) else a - 1

theorem ga_zero (own : Nat → Option (Nat × Nat)) (k : Nat) : ga own k 0 = 2 * k := rfl

theorem ga_w {own : Nat → Option (Nat × Nat)} {n d k' : Nat} (k : Nat) (h : own n = some (d, k')) : ga own k (wAg n) = 2 * d := by
  have h2 : (2 * n + 1) / 2 = n := by omega
  simp only [ga, wAg, h2, h, Option.elim]
  rw [if_neg (by omega), if_pos (by omega)]

theorem ga_t (own : Nat → Option (Nat × Nat)) (k n : Nat) : ga own k (tAg n) = 2 * n + 1 := by
  simp only [ga, tAg]
  rw [if_neg (by omega), if_neg (by omega)]; omega

/-- An operation that is not one on the locks of `k` itself. (Concerns co_env.cpp:98-186, co_ctx.cpp:69-82.) -/
def Outer (k : Nat) (p : Op (Nat × PLk) X) : Prop := ∀ l, p ≠ .acq (k, l) ∧ p ≠ .rel (k, l)

/-- At `i`, coroutine `k` did something, other than end. (Concerns co_env.cpp:98-186, co_ctx.cpp:69-82.) -/
def Did (tr : Tr (Nat × PLk) X) (k i : Nat) : Prop := ∃ p, tr[i]? = some (2 * k, p) ∧ Outer k p

/-- `k` has released its lock `l` after all it did. (Concerns co_env.cpp:98-186, co_ctx.cpp:69-82.) -/
def JPub (tr : Tr (Nat × PLk) X) (k : Nat) (l : PLk) : Prop := ∃ r : Nat, tr[r]? = some (2 * k, .rel (k, l)) ∧ ∀ i, Did tr k i → i < r

/-- After that, `d` has taken the lock. (Concerns co_env.cpp:98-186, co_ctx.cpp:69-82.) -/
def JSeen (tr : Tr (Nat × PLk) X) (d k : Nat) (l : PLk) : Prop :=
  ∃ r q : Nat, r < q ∧ tr[r]? = some (2 * k, .rel (k, l)) ∧ (∀ i, Did tr k i → i < r) ∧ tr[q]? = some (2 * d, .acq (k, l))

/-- The invariant. (Concerns co_env.cpp:98-186, co_ctx.cpp:69-82.) -/
structure JInv (s : JSt) (tr : Tr (Nat × PLk) X) : Prop where
  si : ∀ k, SInv (s.inst k)
  ki : ∀ k, KInv (s.inst k)
  wf : WF tr
  lk : ∀ k l, holder (k, l) tr = ((s.inst k).lk l).map (ga s.own k)
  own : ∀ k n, (s.inst k).w n ≠ .out → ∃ d, s.own n = some (d, k)
  busy : ∀ d n, s.busy d = some n → (s.inst d).f = .body ∧ ∃ k, s.own n = some (d, k) ∧ d ≠ k
  pub : ∀ k, (s.inst k).finished = true → JPub tr k .st
  pubw : ∀ k n, (s.inst k).woken n = true → JPub tr k (.flag n)
  seen1 : ∀ k n d, s.own n = some (d, k) → (s.inst k).w n = .look ∨ (s.inst k).w n = .look2 → (s.inst k).finished = true → JSeen tr d k .st
  seen2 : ∀ k n d, s.own n = some (d, k) → (s.inst k).w n = .test → (s.inst k).woken n = true → JSeen tr d k (.flag n)
  seen : ∀ k n d, s.own n = some (d, k) → (s.inst k).w n = .read → ∃ l, JSeen tr d k l
  knows : ∀ d x, s.knows d x = true → (s.inst x).finished = true ∧ ∃ q : Nat, Did tr d q ∧ ∀ i, Did tr x i → HB tr i q

theorem jinv_init : JInv (X := X) JSt.init [] where
  si _ := sinv_init
  ki _ m a h := by simp [JSt.init, PSt.init] at h
  wf k a l := by simp
  lk k l := rfl
  own k n h := absurd rfl h
  busy d n h := by simp [JSt.init] at h
  pub k h := by simp [JSt.init, PSt.init] at h
  pubw k n h := by simp [JSt.init, PSt.init] at h
  seen1 k n d h := by simp [JSt.init] at h
  seen2 k n d h := by simp [JSt.init] at h
  seen k n d h := by simp [JSt.init] at h
  knows d x h := by simp [JSt.init] at h

theorem jmono {tr : Tr (Nat × PLk) X} (e : Tr (Nat × PLk) X) (k : Nat) (f : Nat × Op (Nat × PLk) X) (h : tr[k]? = some f) : (tr ++ e)[k]? = some f := by
  rw [List.getElem?_append_left (List.getElem?_eq_some_iff.1 h).1]; exact h

theorem Did.mono {tr : Tr (Nat × PLk) X} {k i : Nat} (h : Did tr k i) (e : Tr (Nat × PLk) X) : Did (tr ++ e) k i := by
  obtain ⟨p, h1, h2⟩ := h; exact ⟨p, jmono _ _ _ h1, h2⟩

/-- `k` does nothing in `e`. (Concerns co_env.cpp:98-186, co_ctx.cpp:69-82.) -/
def Still (k : Nat) (e : Tr (Nat × PLk) X) : Prop := ∀ p ∈ e, p.1 = 2 * k → ¬ Outer k p.2

theorem still {tr e : Tr (Nat × PLk) X} {k i : Nat} (h : Still k e) (hi : Did (tr ++ e) k i) : Did tr k i := by
  obtain ⟨p, h1, h2⟩ := hi
  rw [List.getElem?_append] at h1
  split at h1
  · exact ⟨p, h1, h2⟩
  · exact absurd h2 (h _ (List.mem_of_getElem? h1) rfl)

theorem JPub.mono {tr : Tr (Nat × PLk) X} {k : Nat} {l : PLk} (h : JPub tr k l) {e : Tr (Nat × PLk) X} (he : Still k e) : JPub (tr ++ e) k l := by
  obtain ⟨r, h1, h2⟩ := h
  exact ⟨r, jmono _ _ _ h1, fun i hi => h2 i (still he hi)⟩

theorem JSeen.mono {tr : Tr (Nat × PLk) X} {d k : Nat} {l : PLk} (h : JSeen tr d k l) {e : Tr (Nat × PLk) X} (he : Still k e) : JSeen (tr ++ e) d k l := by
  obtain ⟨r, q, h0, h1, h2, h3⟩ := h
  exact ⟨r, q, h0, jmono _ _ _ h1, fun i hi => h2 i (still he hi), jmono _ _ _ h3⟩

theorem did_lt {tr : Tr (Nat × PLk) X} {k i : Nat} (h : Did tr k i) : i < tr.length := by
  obtain ⟨p, h, _⟩ := h; exact (List.getElem?_eq_some_iff.1 h).1

/-- What is known stays known when those who have ended do nothing. -/
theorem knows_mono {s : JSt} {tr : Tr (Nat × PLk) X} (h : JInv s tr) (e : Tr (Nat × PLk) X) (hq : ∀ x, (s.inst x).finished = true → Still x e)
    (d x : Nat) (hk : s.knows d x = true) : ∃ q : Nat, Did (tr ++ e) d q ∧ ∀ i, Did (tr ++ e) x i → HB (tr ++ e) i q := by
  obtain ⟨hf, q, h1, h2⟩ := h.knows d x hk
  exact ⟨q, h1.mono e, fun i hi => hb_mono _ (h2 i (still (hq x hf) hi))⟩

/-- A step of the instance of `k`. -/
theorem inst_step {s : JSt} {tr : Tr (Nat × PLk) X} (h : JInv s tr) {k ag : Nat} {a : PAct} {i : PSt} {e : Tr PLk Unit}
    (hs : pstep (s.inst k) a = some (i, e)) (hag : ga s.own k (agentOf a) = ag) (hD : ∀ x, ag = 2 * x → x ≠ k → (s.inst x).f = .body)
    (hc : ∀ n t, a ≠ .call n t) (hfin : (∃ m, a = .fin m) → s.busy k = none) :
    JInv { s with inst := upd s.inst k i } (tr ++ lift ag k e) ∧ (∀ x, (s.inst x).finished = true → Still x (lift (X := X) ag k e)) := by
  have hsi := h.si k
  have hA := step_agent _ _ _ _ hs
  obtain ⟨f1, f2, f3, f4, f5, f6⟩ := step_facts _ _ _ _ hsi hs
  obtain ⟨p1, p2⟩ := step_pcs _ _ _ _ hs
  have g := sinv_step _ _ _ _ hsi hs
  have hmem : ∀ p ∈ lift (X := X) ag k e, p.1 = ag ∧ ((∃ l, p.2 = .acq (k, l)) ∨ ∃ l, p.2 = .rel (k, l)) := by
    intro p hp
    simp only [lift, List.mem_filterMap] at hp
    obtain ⟨⟨b, op⟩, _, hp⟩ := hp
    cases op <;> simp at hp <;> subst hp <;> simp
  have hSt : ∀ x, ((s.inst x).f = .body → False) ∨ x = k → Still x (lift (X := X) ag k e) := by
    intro x hx p hp hpx ho
    obtain ⟨h1, h2⟩ := hmem p hp
    by_cases hxk : x = k
    · subst hxk
      rcases h2 with ⟨l, h2⟩ | ⟨l, h2⟩
      · exact (ho l).1 h2
      · exact (ho l).2 h2
    · rcases hx with hx | hx
      · exact hx (hD x (by rw [← h1, hpx]) hxk)
      · exact hxk hx
  have hFin : ∀ x, (s.inst x).finished = true → Still x (lift (X := X) ag k e) := fun x hx =>
    hSt x (.inl fun hb => by have := (h.si x).early (.inl hb); rw [hx] at this; cases this)
  have hInst : ∀ x, upd s.inst k i x = if x = k then i else s.inst x := fun x => rfl
  have hself := hSt k (.inr rfl)
  have hout : ∀ x n, (upd s.inst k i x).w n ≠ .out → (s.inst x).w n ≠ .out := by
    intro x n hx
    rw [hInst] at hx
    split at hx
    · next hxk =>
      subst hxk
      rcases p2 n hx with h | ⟨t, h⟩
      · exact h
      · exact absurd h (hc n t)
    · exact hx
  have hpubk : ∀ l, e = [(0, .rel l)] → JPub (tr ++ lift (X := X) ag k e) k l := by
    intro l he
    subst he
    have h0 := hA _ (List.mem_singleton.2 rfl)
    have : ag = 2 * k := by rw [← hag, ← h0]; rfl
    subst this
    exact ⟨tr.length, by simp [lift], fun j hj => did_lt (still hself hj)⟩
  have hseenk : ∀ l n d, s.own n = some (d, k) → e = [(wAg n, .acq l)] → JPub tr k l → JSeen (tr ++ lift (X := X) ag k e) d k l := by
    intro l n d ho he ⟨r, r1, r2⟩
    subst he
    have h0 := hA _ (List.mem_singleton.2 rfl)
    have : ag = 2 * d := by rw [← hag, ← h0]; exact ga_w k ho
    subst this
    exact ⟨r, tr.length, (List.getElem?_eq_some_iff.1 r1).1, jmono _ _ _ r1, fun j hj => r2 j (still hself hj), by simp [lift]⟩
  refine ⟨⟨fun x => ?_, fun x => ?_, ?_, fun x l => ?_, fun x n hx => h.own x n (hout x n hx), fun d n hb => ?_, fun x hx => ?_, fun x n hx => ?_,
    fun x n d ho hx hx' => ?_, fun x n d ho hx hx' => ?_, fun x n d ho hx => ?_, fun d x hk => ⟨?_, knows_mono h _ hFin d x hk⟩⟩, hFin⟩
  · show SInv (upd s.inst k i x)
    rw [hInst]; split
    · exact g
    · exact h.si x
  · show KInv (upd s.inst k i x)
    rw [hInst]; split
    · exact kinv_step _ _ _ _ (h.ki k) hs
    · exact h.ki x
  · rcases step_lock _ _ _ _ hsi hs with ⟨rfl, hl⟩ | ⟨b, l, rfl, hl, hl'⟩ | ⟨b, l, rfl, hl, hl'⟩ | ⟨rfl, hb, rfl⟩ | ⟨d, rfl, hd, rfl⟩
    · simpa [lift] using h.wf
    · refine WF.snoc h.wf _ (fun k' hk' => ?_) (fun k' hk' => by cases hk')
      cases hk'; rw [h.lk, hl]; rfl
    · refine WF.snoc h.wf _ (fun k' hk' => by cases hk') (fun k' hk' => ?_)
      cases hk'; rw [h.lk, hl]
      have h0 := hA _ (List.mem_singleton.2 rfl)
      simp only at h0
      simp [← hag, h0]
    · simpa [lift] using h.wf
    · simpa [lift] using h.wf
  · show holder (x, l) _ = ((upd s.inst k i x).lk l).map (ga s.own x)
    rw [hInst]
    rcases step_lock _ _ _ _ hsi hs with ⟨rfl, hl⟩ | ⟨b, m, rfl, hl, hl'⟩ | ⟨b, m, rfl, hl, hl'⟩ | ⟨rfl, hb, rfl⟩ | ⟨d, rfl, hd, rfl⟩
    · simp only [lift, List.filterMap_nil, List.append_nil]
      rw [h.lk]; split
      · next hxk => subst hxk; rw [hl]
      · rfl
    · have h0 := hA _ (List.mem_singleton.2 rfl)
      simp only at h0
      show holder (x, l) (tr ++ [(ag, .acq (k, m))]) = _
      rw [holder_snoc, h.lk]
      by_cases hxk : x = k
      · subst hxk
        rw [if_pos rfl, hl']
        by_cases hlm : l = m
        · subst hlm; simp [← hag, h0]
        · simp [hlm, Ne.symm hlm]
      · simp [hxk, Ne.symm hxk]
    · show holder (x, l) (tr ++ [(ag, .rel (k, m))]) = _
      rw [holder_snoc, h.lk]
      by_cases hxk : x = k
      · subst hxk
        rw [if_pos rfl, hl']
        by_cases hlm : l = m
        · subst hlm; simp
        · simp [hlm, Ne.symm hlm]
      · simp [hxk, Ne.symm hxk]
    · simp only [lift, List.filterMap_cons, List.filterMap_nil, List.append_nil]
      rw [h.lk]; split
      · next hxk => subst hxk; rfl
      · rfl
    · simp only [lift, List.filterMap_cons, List.filterMap_nil, List.append_nil]
      rw [h.lk]; split
      · next hxk => subst hxk; rfl
      · rfl
  · obtain ⟨b1, b2⟩ := h.busy d n hb
    refine ⟨?_, b2⟩
    show (upd s.inst k i d).f = .body
    rw [hInst]; split
    · next hdk =>
      subst hdk
      by_cases hf : i.f = (s.inst d).f
      · rw [hf, b1]
      · have := hfin (p1 hf)
        have hb' : s.busy d = some n := hb
        rw [this] at hb'; cases hb'
    · exact b1
  · change (upd s.inst k i x).finished = true at hx
    rw [hInst] at hx
    by_cases hxk : x = k
    · subst hxk
      rw [if_pos rfl] at hx
      rcases f1 hx with h' | h'
      · exact (h.pub x h').mono (hFin x h')
      · exact hpubk _ h'
    · rw [if_neg hxk] at hx
      exact (h.pub x hx).mono (hFin x hx)
  · change (upd s.inst k i x).woken n = true at hx
    rw [hInst] at hx
    by_cases hxk : x = k
    · subst hxk
      rw [if_pos rfl] at hx
      rcases f2 n hx with h' | h'
      · exact (h.pubw x n h').mono hself
      · exact hpubk _ h'
    · rw [if_neg hxk] at hx
      exact (h.pubw x n hx).mono (hFin x ((h.si x).woke n hx))
  · change (upd s.inst k i x).w n = .look ∨ (upd s.inst k i x).w n = .look2 at hx
    change (upd s.inst k i x).finished = true at hx'
    rw [hInst] at hx hx'
    by_cases hxk : x = k
    · subst hxk
      rw [if_pos rfl] at hx hx'
      obtain ⟨h1, h2 | h2⟩ := f3 n hx hx'
      · exact (h.seen1 x n d ho h2 h1).mono hself
      · exact hseenk _ n d ho h2 (h.pub x h1)
    · rw [if_neg hxk] at hx hx'
      exact (h.seen1 x n d ho hx hx').mono (hFin x hx')
  · change (upd s.inst k i x).w n = .test at hx
    change (upd s.inst k i x).woken n = true at hx'
    rw [hInst] at hx hx'
    by_cases hxk : x = k
    · subst hxk
      rw [if_pos rfl] at hx hx'
      obtain ⟨h1, h2 | h2⟩ := f4 n hx hx'
      · exact (h.seen2 x n d ho h2 h1).mono hself
      · exact hseenk _ n d ho h2 (h.pubw x n h1)
    · rw [if_neg hxk] at hx hx'
      exact (h.seen2 x n d ho hx hx').mono (hFin x ((h.si x).woke n hx'))
  · change (upd s.inst k i x).w n = .read at hx
    rw [hInst] at hx
    by_cases hxk : x = k
    · subst hxk
      rw [if_pos rfl] at hx
      rcases f5 n hx with h' | ⟨h', h''⟩ | ⟨h', h''⟩
      · obtain ⟨l, hl⟩ := h.seen x n d ho h'; exact ⟨l, hl.mono hself⟩
      · exact ⟨_, (h.seen1 x n d ho h' h'').mono hself⟩
      · exact ⟨_, (h.seen2 x n d ho h' h'').mono hself⟩
    · rw [if_neg hxk] at hx
      obtain ⟨l, hl⟩ := h.seen x n d ho hx
      exact ⟨l, hl.mono (hFin x ((h.si x).read n hx))⟩
  · show (upd s.inst k i x).finished = true
    have := (h.knows d x hk).1
    rw [hInst]; split
    · next hxk => subst hxk; exact f6 this
    · exact this

/-- A wait call that has not begun is nobody's. -/
theorem ga_call {s : JSt} {tr : Tr (Nat × PLk) X} (h : JInv s tr) {n : Nat} (hn : s.own n = none) (v : Nat × Nat) (k a : Nat) (l : PLk)
    (ha : (s.inst k).lk l = some a) : ga (upd s.own n (some v)) k a = ga s.own k a := by
  by_cases hz : a = 0
  · subst hz; rfl
  by_cases ho : a % 2 = 1
  · simp only [ga, if_neg hz, if_pos ho]
    have hw : a = wAg (a / 2) := by simp only [wAg]; omega
    have : a / 2 ≠ n := by
      intro hd
      rw [hd] at hw
      subst hw
      have hout : (s.inst k).w n ≠ .out := by
        cases l with
        | st => rcases ((h.si k).wst n).1 ha with h | h <;> rw [h] <;> simp
        | flag m =>
          have := h.ki k m _ ha
          have : m = n := by simp only [wAg, tAg] at this; omega
          subst this
          rcases ((h.si k).wflag m).1 ha with h | h <;> rw [h] <;> simp
      obtain ⟨d, hd⟩ := h.own k n hout
      rw [hn] at hd; cases hd
    rw [upd_apply, if_neg this]
  · simp only [ga, if_neg hz, if_neg ho]

theorem jinv_step (s : JSt) (a : JAct X) (s' : JSt) (e tr : Tr (Nat × PLk) X) (h : JInv s tr) (hs : jstep s a = some (s', e)) : JInv s' (tr ++ e) := by
  cases a with
  | acc d x w =>
    simp only [jstep] at hs
    split at hs <;> cases hs
    next hg =>
    have hF : ∀ y, (s.inst y).finished = true → Still y [(2 * d, if w then Op.wr x else Op.rd x)] := by
      intro y hy p hp hpy
      simp only [List.mem_singleton] at hp
      subst hp
      have : y = d := by simp only at hpy; omega
      subst this
      have := (h.si y).early (.inl hg.2)
      rw [hy] at this; cases this
    refine ⟨h.si, h.ki, WF.snoc h.wf _ (fun k hk => ?_) (fun k hk => ?_), fun k l => ?_, h.own, h.busy, fun k hk => (h.pub k hk).mono (hF k hk),
      fun k n hk => (h.pubw k n hk).mono (hF k ((h.si k).woke n hk)), fun k n c ho h1 h2 => (h.seen1 k n c ho h1 h2).mono (hF k h2),
      fun k n c ho h1 h2 => (h.seen2 k n c ho h1 h2).mono (hF k ((h.si k).woke n h2)), fun k n c ho h1 => ?_,
      fun c y hk => ⟨(h.knows c y hk).1, knows_mono h _ hF c y hk⟩⟩
    · cases w <;> simp at hk
    · cases w <;> simp at hk
    · rw [holder_snoc, ← h.lk]; cases w <;> rfl
    · obtain ⟨l, hl⟩ := h.seen k n c ho h1; exact ⟨l, hl.mono (hF k ((h.si k).read n h1))⟩
  | fin d m =>
    simp only [jstep] at hs
    split at hs
    · next hb =>
      split at hs <;> cases hs
      next i e' hp =>
      exact (inst_step h hp (ga_zero _ _) (fun x hx hne => absurd (by omega) hne) (fun n t hc => by cases hc) (fun _ => hb)).1
    · cases hs
  | call d k n timed =>
    simp only [jstep] at hs
    split at hs
    · next hg =>
      obtain ⟨g1, g2, g3, g4⟩ := hg
      split at hs <;> cases hs
      next i e' hp =>
      simp only [pstep] at hp
      split at hp <;> cases hp
      next hout =>
      rw [List.append_nil]
      have hInst : ∀ y, (upd s.inst k { s.inst k with w := upd (s.inst k).w n .st, timed := upd (s.inst k).timed n timed } y).finished = (s.inst y).finished ∧
          (upd s.inst k { s.inst k with w := upd (s.inst k).w n .st, timed := upd (s.inst k).timed n timed } y).f = (s.inst y).f ∧
          (upd s.inst k { s.inst k with w := upd (s.inst k).w n .st, timed := upd (s.inst k).timed n timed } y).lk = (s.inst y).lk ∧
          (upd s.inst k { s.inst k with w := upd (s.inst k).w n .st, timed := upd (s.inst k).timed n timed } y).woken = (s.inst y).woken := by
        intro y; rw [upd_apply]; split
        · next hy => subst hy; simp
        · simp
      have hW : ∀ y m, (upd s.inst k { s.inst k with w := upd (s.inst k).w n .st, timed := upd (s.inst k).timed n timed } y).w m =
          if y = k ∧ m = n then .st else (s.inst y).w m := by
        intro y m
        rw [upd_apply]
        by_cases hy : y = k
        · subst hy; simp [upd_apply]
        · simp [hy]
      have hown : ∀ y m c, upd s.own n (some (d, k)) m = some (c, y) → (m = n ∧ c = d ∧ y = k) ∨ (m ≠ n ∧ s.own m = some (c, y)) := by
        intro y m c hm
        rw [upd_apply] at hm
        split at hm
        · next hmn => cases hm; exact .inl ⟨hmn, rfl, rfl⟩
        · next hmn => exact .inr ⟨hmn, hm⟩
      refine ⟨fun y => ?_, fun y => ?_, h.wf, fun y l => ?_, fun y m hm => ?_, fun c m hm => ?_, fun y hy => ?_, fun y m hy => ?_, fun y m c ho hw hf => ?_,
        fun y m c ho hw hf => ?_, fun y m c ho hw => ?_, fun c y hk => ?_⟩
      · show SInv (upd s.inst k _ y)
        rw [upd_apply]; split
        · exact sinv_step (s.inst k) _ (.call n timed) [] (h.si k) (by simp only [pstep]; rw [if_pos hout])
        · exact h.si y
      · show KInv (upd s.inst k _ y)
        rw [upd_apply]; split
        · exact h.ki k
        · exact h.ki y
      · show _ = ((upd s.inst k _ y).lk l).map _
        rw [(hInst y).2.2.1, h.lk]
        cases hl : (s.inst y).lk l with
        | none => rfl
        | some a => simp only [Option.map_some]; rw [ga_call h g3 _ _ _ _ hl]
      · change (upd s.inst k _ y).w m ≠ .out at hm
        show ∃ c, upd s.own n _ m = some (c, y)
        rw [hW] at hm
        split at hm
        · next hy => obtain ⟨rfl, rfl⟩ := hy; exact ⟨d, upd_same _ _ _⟩
        · obtain ⟨c, hc⟩ := h.own y m hm
          have : m ≠ n := by rintro rfl; rw [g3] at hc; cases hc
          exact ⟨c, by rw [upd_apply, if_neg this]; exact hc⟩
      · change upd s.busy d (some n) c = some m at hm
        show (upd s.inst k _ c).f = .body ∧ ∃ y, upd s.own n _ m = some (c, y) ∧ c ≠ y
        rw [(hInst c).2.1]
        rw [upd_apply] at hm
        split at hm
        · next hc => cases hm; subst hc; exact ⟨g2, k, upd_same _ _ _, g4⟩
        · obtain ⟨b1, y, b2, b3⟩ := h.busy c m hm
          have : m ≠ n := by rintro rfl; rw [g3] at b2; cases b2
          exact ⟨b1, y, by rw [upd_apply, if_neg this]; exact b2, b3⟩
      · change (upd s.inst k _ y).finished = true at hy
        rw [(hInst y).1] at hy; exact h.pub y hy
      · change (upd s.inst k _ y).woken m = true at hy
        rw [(hInst y).2.2.2] at hy; exact h.pubw y m hy
      · change (upd s.inst k _ y).w m = .look ∨ (upd s.inst k _ y).w m = .look2 at hw
        change (upd s.inst k _ y).finished = true at hf
        rw [(hInst y).1] at hf
        rw [hW] at hw
        rcases hown y m c ho with ⟨rfl, rfl, rfl⟩ | ⟨hmn, ho⟩
        · simp at hw
        · rw [if_neg (fun hh => hmn hh.2)] at hw; exact h.seen1 y m c ho hw hf
      · change (upd s.inst k _ y).w m = .test at hw
        change (upd s.inst k _ y).woken m = true at hf
        rw [(hInst y).2.2.2] at hf
        rw [hW] at hw
        rcases hown y m c ho with ⟨rfl, rfl, rfl⟩ | ⟨hmn, ho⟩
        · simp at hw
        · rw [if_neg (fun hh => hmn hh.2)] at hw; exact h.seen2 y m c ho hw hf
      · change (upd s.inst k _ y).w m = .read at hw
        rw [hW] at hw
        rcases hown y m c ho with ⟨rfl, rfl, rfl⟩ | ⟨hmn, ho⟩
        · simp at hw
        · rw [if_neg (fun hh => hmn hh.2)] at hw; exact h.seen y m c ho hw
      · obtain ⟨k1, k2⟩ := h.knows c y hk
        exact ⟨by show (upd s.inst k _ y).finished = true; rw [(hInst y).1]; exact k1, k2⟩
    · cases hs
  | run d =>
    simp only [jstep] at hs
    split at hs
    · cases hs
    · next n hb =>
      split at hs
      · cases hs
      · next d' k ho =>
        split at hs <;> cases hs
        next i e' hp =>
        obtain ⟨hf, k', hk', hdk⟩ := h.busy d n hb
        rw [ho] at hk'
        cases hk'
        have hJ := (inst_step h hp (ga_w k ho) (fun x hx hne => by have : x = d := by omega
                                                                   subst this; exact hf) (fun n t hc => by cases hc) (fun ⟨m, hm⟩ => by cases hm)).1
        generalize hs1 : ({ s with inst := upd s.inst k i } : JSt) = s1 at hJ
        have ho1 : s1.own n = some (d, k) := by subst hs1; exact ho
        have hbz : ∀ c m, upd s1.busy d none c = some m → s1.busy c = some m := fun c m hc => by
          rw [upd_apply] at hc; split at hc
          · cases hc
          · exact hc
        simp only [JSt.back]
        split
        · next hw =>
          refine ⟨hJ.si, hJ.ki, hJ.wf, hJ.lk, hJ.own, fun c m hc => hJ.busy c m (hbz c m hc), hJ.pub, hJ.pubw, hJ.seen1, hJ.seen2, hJ.seen, fun c x hk => ?_⟩
          change upd s1.knows d _ c x = true at hk
          rw [upd_apply] at hk
          split at hk
          · next hc =>
            subst hc
            simp only [Bool.or_eq_true, beq_iff_eq] at hk
            obtain ⟨l, r, q, q1, q2, q3, q4⟩ := hJ.seen k n c ho1 hw
            have hrq := rel_acq hJ.wf q1 q2 q4
            have hDq : Did (tr ++ lift (2 * c) k e') c q := ⟨_, q4, fun l' => ⟨fun he => hdk (by cases he; rfl), fun he => by cases he⟩⟩
            have hk2 : ∀ j, Did (tr ++ lift (2 * c) k e') k j → HB (tr ++ lift (2 * c) k e') j q := by
              rintro j ⟨p, hj1, hj2⟩
              exact (HB.po (q3 j ⟨p, hj1, hj2⟩) hj1 q2).trans hrq
            rcases hk with (hk | hk) | hk
            · exact hJ.knows c x hk
            · subst hk; exact ⟨(hJ.si x).read n hw, q, hDq, hk2⟩
            · obtain ⟨k1, q', k2, k3⟩ := hJ.knows k x hk
              exact ⟨k1, q, hDq, fun j hj => (k3 j hj).trans (hk2 q' k2)⟩
          · exact hJ.knows c x hk
        · exact ⟨hJ.si, hJ.ki, hJ.wf, hJ.lk, hJ.own, fun c m hc => hJ.busy c m (hbz c m hc), hJ.pub, hJ.pubw, hJ.seen1, hJ.seen2, hJ.seen, hJ.knows⟩
        · exact hJ
  | tick n =>
    simp only [jstep] at hs
    split at hs
    · cases hs
    · next d' k ho =>
      split at hs <;> cases hs
      next i e' hp =>
      exact (inst_step h hp (ga_t _ _ _) (fun x hx hne => by omega) (fun n t hc => by cases hc) (fun ⟨m, hm⟩ => by cases hm)).1

theorem jinv {as : List (JAct X)} {s : JSt} {tr : Tr (Nat × PLk) X} (h : runs jstep JSt.init as = some (s, tr)) : JInv s tr := by
  simpa using runs_hist (step := jstep) JInv (fun s a s' es tr => jinv_step s a s' es tr) as _ s tr [] jinv_init h

/-! ## The theorems -/

/-- Who has ended does nothing more. -/
theorem still_step {s s' : JSt} {a : JAct X} {e tr : Tr (Nat × PLk) X} (h : JInv s tr) (hs : jstep s a = some (s', e)) (x : Nat)
    (hx : (s.inst x).finished = true) : Still x e ∧ (s'.inst x).finished = true := by
  have hnb : ∀ d, (s.inst d).f = .body → d ≠ x := fun d hd hdx => by
    subst hdx
    have := (h.si d).early (.inl hd)
    rw [hx] at this; cases this
  have hstill : ∀ ag k (e' : Tr PLk Unit), (ag = 2 * x → x = k) → Still x (lift (X := X) ag k e') := by
    intro ag k e' hag p hp hpx ho
    simp only [lift, List.mem_filterMap] at hp
    obtain ⟨⟨b, op⟩, _, hp⟩ := hp
    cases op <;> simp at hp <;> subst hp
    · exact (ho _).1 (by rw [hag hpx])
    · exact (ho _).2 (by rw [hag hpx])
  have hfin : ∀ k a' i e', pstep (s.inst k) a' = some (i, e') → (upd s.inst k i x).finished = true := by
    intro k a' i e' hp
    rw [upd_apply]; split
    · next hk => subst hk; exact (step_facts _ _ _ _ (h.si x) hp).2.2.2.2.2 hx
    · exact hx
  cases a with
  | acc d y w =>
    simp only [jstep] at hs
    split at hs <;> cases hs
    next hg =>
    refine ⟨fun p hp hpx => ?_, hx⟩
    simp only [List.mem_singleton] at hp
    subst hp
    have := hnb d hg.2
    simp only at hpx; omega
  | fin d m =>
    simp only [jstep] at hs
    split at hs
    · split at hs <;> cases hs
      next hp => exact ⟨hstill _ _ _ (by omega), hfin _ _ _ _ hp⟩
    · cases hs
  | call d k n t =>
    simp only [jstep] at hs
    split at hs
    · split at hs <;> cases hs
      next hp => exact ⟨fun p hp => by simp at hp, hfin _ _ _ _ hp⟩
    · cases hs
  | run d =>
    simp only [jstep] at hs
    split at hs
    · cases hs
    · next n hb =>
      split at hs
      · cases hs
      · next d' k ho =>
        split at hs <;> cases hs
        next i e' hp =>
        have := hnb d (h.busy d n hb).1
        refine ⟨hstill _ _ _ (by omega), ?_⟩
        simp only [JSt.back]
        split <;> exact hfin _ _ _ _ hp
  | tick n =>
    simp only [jstep] at hs
    split at hs
    · cases hs
    · split at hs <;> cases hs
      next hp => exact ⟨hstill _ _ _ (by omega), hfin _ _ _ _ hp⟩

theorem still_runs {x : Nat} (bs : List (JAct X)) : ∀ {s s' : JSt} {tr e : Tr (Nat × PLk) X}, JInv s tr → runs jstep s bs = some (s', e) →
    (s.inst x).finished = true → Still x e := by
  induction bs with
  | nil => intro s s' tr e _ h _; simp only [runs, Option.some.injEq, Prod.mk.injEq] at h; rw [← h.2]; intro p hp; simp at hp
  | cons b bs ih =>
    intro s s' tr e hI h hx
    obtain ⟨s1, e1, e2, h1, h2, rfl⟩ := runs_cons h
    obtain ⟨g1, g2⟩ := still_step hI h1 x hx
    intro p hp
    rcases List.mem_append.1 hp with hp | hp
    · exact g1 p hp
    · exact ih (jinv_step _ _ _ _ _ hI h1) h2 g2 p hp

/-- **C131 (who has waited sees all).** When `d` knows that `k` has ended, because it waited for `k`, or for somebody who knew, then every access
of `k` to whatever data, there will be no more, happens before everything that `d` does from then on. -/
theorem C131_waited_sees (as bs : List (JAct X)) (s1 s2 : JSt) (tr1 tr2 : Tr (Nat × PLk) X) (h1 : runs jstep JSt.init as = some (s1, tr1))
    (h2 : runs jstep s1 bs = some (s2, tr2)) (d k : Nat) (hk : s1.knows d k = true) (i j : Nat) (x : X) (p q : Op (Nat × PLk) X)
    (hi : (tr1 ++ tr2)[i]? = some (2 * k, p)) (hp : p.touches x) (hj : (tr1 ++ tr2)[j]? = some (2 * d, q)) (hlater : tr1.length ≤ j) :
    i < tr1.length ∧ HB (tr1 ++ tr2) i j := by
  have hI := jinv h1
  obtain ⟨hf, n, hn, hb⟩ := hI.knows d k hk
  have ho : Outer k p := fun l => by rcases hp with rfl | rfl <;> simp
  have hD := still (still_runs bs hI h2 hf) ⟨p, hi, ho⟩
  obtain ⟨p', hp', _⟩ := hn
  have hlt := (List.getElem?_eq_some_iff.1 hp').1
  exact ⟨did_lt hD, (hb_mono tr2 (hb i hD)).trans (HB.po (by omega) (jmono _ _ _ hp') hj)⟩

/-- Only wait calls with a time-out look at the state again or give up. (Concerns co_env.cpp:98-186, co_ctx.cpp:69-82.) -/
def TInv (s : PSt) : Prop := ∀ n, s.w n = .st2 ∨ s.w n = .look2 ∨ s.w n = .gone → s.timed n = true

theorem tinv_step (s s' : PSt) (a : PAct) (e : Tr PLk Unit) (h : TInv s) (hs : pstep s a = some (s', e)) : TInv s' := by
  unfold TInv at h ⊢
  cases a with
  | write => simp only [pstep] at hs; split at hs <;> cases hs; assumption
  | fin d => simp only [pstep] at hs; split at hs <;> (try split at hs) <;> cases hs <;> exact h
  | call d b => simp only [pstep] at hs; split at hs <;> cases hs; grind
  | run d =>
    simp only [pstep] at hs
    split at hs <;> (try split at hs) <;> cases hs <;> (try simp only [PSt.take, PSt.give]) <;> grind
  | tick d => simp only [pstep] at hs; split at hs <;> (try split at hs) <;> (try split at hs) <;> cases hs <;> exact h

theorem tinv {as : List (JAct X)} {s : JSt} {tr : Tr (Nat × PLk) X} (h : runs jstep JSt.init as = some (s, tr)) : ∀ k, TInv (s.inst k) := by
  refine runs_inv (step := jstep (X := X)) (fun s => ∀ k, TInv (s.inst k)) (fun s a s' e hI hs => ?_) as _ s tr (fun k n hn => by simp [JSt.init, PSt.init] at hn) h
  have hu : ∀ k a' i e', pstep (s.inst k) a' = some (i, e') → ∀ y, TInv (upd s.inst k i y) := by
    intro k a' i e' hp y
    rw [upd_apply]; split
    · exact tinv_step _ _ _ _ (hI k) hp
    · exact hI y
  cases a with
  | acc d x w => simp only [jstep] at hs; split at hs <;> cases hs; exact hI
  | fin d m =>
    simp only [jstep] at hs
    split at hs <;> (try split at hs) <;> cases hs
    next hp => exact hu _ _ _ _ hp
  | call d k n t =>
    simp only [jstep] at hs
    split at hs <;> (try split at hs) <;> cases hs
    next hp => exact hu _ _ _ _ hp
  | run d =>
    simp only [jstep] at hs
    split at hs <;> (try split at hs) <;> (try split at hs) <;> cases hs
    next hp => simp only [JSt.back]; split <;> exact hu _ _ _ _ hp
  | tick n =>
    simp only [jstep] at hs
    split at hs <;> (try split at hs) <;> cases hs
    next hp => exact hu _ _ _ _ hp

/-- **C131 (a wait tells).** A wait call for `k` that returns has learnt that `k` has ended and, with that, all that `k` knew; unless it has a
time-out and that was first. -/
theorem C131_wait_learns (as : List (JAct X)) (s s' : JSt) (tr e : Tr (Nat × PLk) X) (h : runs jstep JSt.init as = some (s, tr)) (d k n : Nat)
    (hb : s.busy d = some n) (ho : s.own n = some (d, k)) (hs : jstep s (.run d) = some (s', e)) (hret : s'.busy d = none) :
    ((s'.inst k).finished = true ∧ s'.knows d k = true ∧ ∀ x, s.knows k x = true → s'.knows d x = true) ∨
      ((s'.inst k).w n = .gone ∧ (s'.inst k).timed n = true ∧ s'.knows = s.knows) := by
  have hT : ∀ y, TInv (s'.inst y) := tinv (as := as ++ [.run d]) (tr := tr ++ e) (runs_append h (by simp [runs, hs]))
  have hI := jinv_step _ _ _ _ _ (jinv h) hs
  simp only [jstep, hb, ho] at hs
  split at hs <;> cases hs
  next i e' hp =>
  simp only [JSt.back] at hret hT hI ⊢
  split at hret
  · next hw =>
    simp only [hw] at hI ⊢
    exact .inl ⟨(hI.si k).read n hw, by simp, fun x hx => by simp [hx]⟩
  · next hw =>
    simp only [hw] at hT ⊢
    exact .inr ⟨trivial, hT k n (.inr (.inr hw)), trivial⟩
  · rw [hb] at hret; cases hret

/-- Accesses are what the program does. -/
theorem step_acc {s s' : JSt} {a : JAct X} {e : Tr (Nat × PLk) X} (hs : jstep s a = some (s', e)) (ev : Nat × Op (Nat × PLk) X) (hev : ev ∈ e)
    (x : X) (hx : ev.2.touches x) : ∃ d w, a = .acc d x w ∧ e = [(2 * d, if w then .wr x else .rd x)] := by
  have hl : ∀ ag k (e' : Tr PLk Unit), ev ∉ lift (X := X) ag k e' := by
    intro ag k e' hp
    simp only [lift, List.mem_filterMap] at hp
    obtain ⟨⟨b, op⟩, _, hp⟩ := hp
    cases op <;> simp at hp <;> subst hp <;> rcases hx with h | h <;> cases h
  cases a with
  | acc d y w =>
    simp only [jstep] at hs
    split at hs <;> cases hs
    rw [List.mem_singleton] at hev
    subst hev
    cases w <;> rcases hx with h | h <;> cases h
    · exact ⟨d, false, rfl, rfl⟩
    · exact ⟨d, true, rfl, rfl⟩
  | fin d m => simp only [jstep] at hs; split at hs <;> (try split at hs) <;> cases hs; exact absurd hev (hl _ _ _)
  | call d k n t => simp only [jstep] at hs; split at hs <;> (try split at hs) <;> cases hs; simp at hev
  | run d => simp only [jstep] at hs; split at hs <;> (try split at hs) <;> (try split at hs) <;> cases hs; exact absurd hev (hl _ _ _)
  | tick n => simp only [jstep] at hs; split at hs <;> (try split at hs) <;> cases hs; exact absurd hev (hl _ _ _)

theorem acc_agent {as : List (JAct X)} : ∀ {s s' : JSt} {tr : Tr (Nat × PLk) X}, runs jstep s as = some (s', tr) → ∀ ev ∈ tr, ∀ x, ev.2.touches x →
    ∃ k, ev.1 = 2 * k := by
  induction as with
  | nil => intro s s' tr h ev hev; simp only [runs, Option.some.injEq, Prod.mk.injEq] at h; rw [← h.2] at hev; simp at hev
  | cons a as ih =>
    intro s s' tr h ev hev x hx
    obtain ⟨s1, e1, e2, h1, h2, rfl⟩ := runs_cons h
    rcases List.mem_append.1 hev with hev | hev
    · obtain ⟨d, w, _, rfl⟩ := step_acc h1 ev hev x hx
      rw [List.mem_singleton] at hev; subst hev; exact ⟨d, rfl⟩
    · exact ih h2 ev hev x hx

/-- **C131 (fork and join without locks).** If whoever accesses `x`, writing or after somebody else wrote, knows that all others who accessed it
before (all those who wrote it, for a read) have ended, then there is no data race on `x`. -/
theorem C131_join_no_race (x : X) (as : List (JAct X)) (s : JSt) (tr : Tr (Nat × PLk) X) (h : runs jstep JSt.init as = some (s, tr))
    (hrule : ∀ as1 d w as2 s1 tr1, as = as1 ++ .acc d x w :: as2 → runs jstep JSt.init as1 = some (s1, tr1) →
      ∀ (i k : Nat) p, tr1[i]? = some (2 * k, p) → p.touches x → (w = true ∨ p = .wr x) → k ≠ d → s1.knows d k = true) :
    ¬ Race tr x := by
  rintro ⟨i, j, a, b, p, q, hij, hi, hj, hab, hp, hq, hpq, hn⟩
  have hjl := (List.getElem?_eq_some_iff.1 hj).1
  have hsplit : tr = tr.take j ++ (b, q) :: tr.drop (j + 1) := by
    conv => lhs; rw [← List.take_append_drop j tr]
    congr 1
    rw [List.drop_eq_getElem_cons hjl]
    congr 1
    rw [List.getElem?_eq_getElem hjl] at hj
    exact Option.some.inj hj
  rw [hsplit] at h
  obtain ⟨as1, c, as2, s1, s2, p1, p2, q1, q2, rfl, r1, r2, r3, e1, e2⟩ := runs_split _ _ _ _ _ _ h
  obtain ⟨d, w, rfl, he⟩ := step_acc r2 (b, q) (by simp) x hq
  have hp2 : p2 = [] ∧ (b, q) = (2 * d, if w then Op.wr x else Op.rd x) ∧ q1 = [] := by
    cases p2 with
    | nil => simp only [List.nil_append, List.cons.injEq] at he; exact ⟨rfl, he.1, he.2⟩
    | cons y ys => simp at he
  obtain ⟨rfl, hbq, rfl⟩ := hp2
  obtain ⟨rfl, hqw⟩ := Prod.mk.inj hbq
  rw [List.append_nil] at e1
  have hlen : p1.length = j := by rw [← e1, List.length_take]; omega
  have hi1 : p1[i]? = some (a, p) := by rw [← e1, List.getElem?_take, if_pos hij]; exact hi
  obtain ⟨k, rfl⟩ := acc_agent r1 (a, p) (List.mem_of_getElem? hi1) x hp
  have hw : w = true ∨ p = .wr x := by
    rcases hpq with h | h
    · exact .inr h
    · left; rw [hqw] at h; cases w
      · simp at h
      · rfl
  have hkn := hrule as1 d w as2 s1 p1 rfl r1 i k p hi1 hp hw (fun hh => hab (by rw [hh]))
  have hrest : runs jstep s1 (.acc d x w :: as2) = some (s, [(2 * d, q)] ++ q2) := by simp only [runs, r2, r3]; rfl
  have htr : tr = p1 ++ ([(2 * d, q)] ++ q2) := by rw [hsplit, e1, e2]; rfl
  rw [htr] at hi hj hn
  exact hn (C131_waited_sees as1 _ s1 s p1 _ r1 hrest d k hkn i j x p q hi hp hj (by omega)).2

/-- Several steps of one kind; not in the library. (Concerns co_env.cpp:98-186, co_ctx.cpp:69-82.) -/
abbrev runsOf (d n : Nat) : List (JAct Nat) := List.replicate n (.run d)

/-- Coroutine 2 writes data 7 and ends; 1 waits for it, sleeps and is woken, writes data 8 and ends; 0 waits for 1 with a time-out that comes
too late, and reads both; not in the library. (Concerns co_env.cpp:98-186, co_ctx.cpp:69-82.) -/
def tree : List (JAct Nat) :=
  [.call 1 2 0 false] ++ runsOf 1 4 ++ [.acc 2 7 true, .fin 2 0, .fin 2 0, .fin 2 0, .fin 2 0, .fin 2 0] ++ runsOf 1 2 ++
    [.call 0 1 1 true] ++ runsOf 0 4 ++ [.acc 1 8 true, .fin 1 1, .fin 1 1, .fin 1 1, .tick 1, .tick 1] ++ runsOf 0 4 ++ [.acc 0 7 false, .acc 0 8 true]

/-- In `tree`, 0 knows of both. -/
example : ∃ s tr, runs jstep JSt.init tree = some (s, tr) ∧ s.knows 0 1 = true ∧ s.knows 0 2 = true ∧ s.knows 1 0 = false ∧
    (tr.filter fun e => e.2 == .rd 7 || e.2 == .wr 7 || e.2 == .wr 8) = [(4, .wr 7), (2, .wr 8), (0, .rd 7), (0, .wr 8)] ∧
    tr[4]? = some (4, .wr 7) ∧ tr[24]? = some (0, .rd 7) ∧ HB tr 4 24 := by
  obtain ⟨s1, tr1, s2, tr2, h1, h2, hk, hk', hk2, hk3, hf, hl, hi, hj⟩ : ∃ s1 tr1 s2 tr2, runs jstep JSt.init (tree.take 28) = some (s1, tr1) ∧
      runs jstep s1 (tree.drop 28) = some (s2, tr2) ∧ s1.knows 0 2 = true ∧ s2.knows 0 1 = true ∧ s2.knows 0 2 = true ∧ s2.knows 1 0 = false ∧
      ((tr1 ++ tr2).filter fun e => e.2 == .rd 7 || e.2 == .wr 7 || e.2 == .wr 8) = [(4, .wr 7), (2, .wr 8), (0, .rd 7), (0, .wr 8)] ∧
      tr1.length = 24 ∧ (tr1 ++ tr2)[4]? = some (4, .wr 7) ∧ (tr1 ++ tr2)[24]? = some (0, .rd 7) :=
    ⟨_, _, _, _, rfl, rfl, by decide, by decide, by decide, by decide, by decide, by decide, by decide, by decide⟩
  exact ⟨s2, tr1 ++ tr2, by rw [← List.take_append_drop 28 tree]; exact runs_append h1 h2, hk', hk2, hk3, hf, hi, hj,
    (C131_waited_sees _ _ s1 s2 tr1 tr2 h1 h2 0 2 hk 4 24 7 _ _ hi (.inr rfl) hj (by omega)).2⟩

/-- A check of the rule of `C131_join_no_race` for one program; not in the library. (Concerns co_env.cpp:98-186, co_ctx.cpp:69-82.) -/
def obeys (x : Nat) (as : List (JAct Nat)) : Bool :=
  (List.range as.length).all fun n =>
    match as[n]?, runs jstep JSt.init (as.take n) with
    | some (.acc d y w), some (s1, tr1) => y != x || tr1.all fun ev => match ev.2 with
      | .wr z => z != x || ev.1 == 2 * d || s1.knows d (ev.1 / 2)
      | .rd z => z != x || !w || ev.1 == 2 * d || s1.knows d (ev.1 / 2)
      | _ => true
    | _, _ => true

theorem obeys_rule {x : Nat} {as : List (JAct Nat)} (h : obeys x as = true) (as1 : List (JAct Nat)) (d : Nat) (w : Bool) (as2 : List (JAct Nat)) (s1 : JSt)
    (tr1 : Tr (Nat × PLk) Nat) (has : as = as1 ++ .acc d x w :: as2) (hr : runs jstep JSt.init as1 = some (s1, tr1)) (i k : Nat)
    (p : Op (Nat × PLk) Nat) (hi : tr1[i]? = some (2 * k, p)) (hp : p.touches x) (hw : w = true ∨ p = .wr x) (hkd : k ≠ d) : s1.knows d k = true := by
  have hn := List.all_eq_true.1 h as1.length (List.mem_range.2 (by rw [has]; simp))
  have h1 : as[as1.length]? = some (.acc d x w) := by rw [has]; simp
  have h2 : as.take as1.length = as1 := by rw [has]; simp
  simp only [h1, h2, hr, bne_self_eq_false, Bool.false_or] at hn
  have hev := List.all_eq_true.1 hn _ (List.mem_of_getElem? hi)
  have hk2 : 2 * k / 2 = k := by omega
  have hkd2 : ¬ 2 * k = 2 * d := by omega
  rcases hp with rfl | rfl
  · rcases hw with rfl | hw
    · simpa [hk2, hkd2] using hev
    · cases hw
  · simpa [hk2, hkd2] using hev

/-- `tree` keeps to the rule for both data, and has no race. -/
example : ∃ s tr, runs jstep JSt.init tree = some (s, tr) ∧ ¬ Race tr 7 ∧ ¬ Race tr 8 := by
  obtain ⟨s, tr, h⟩ : ∃ s tr, runs jstep JSt.init tree = some (s, tr) := ⟨_, _, rfl⟩
  exact ⟨s, tr, h, C131_join_no_race 7 tree s tr h (obeys_rule (by decide)), C131_join_no_race 8 tree s tr h (obeys_rule (by decide))⟩

/-- Coroutine 1 writes data 7; 0 waits for it with a time-out, which is over first, and reads the data; not in the library. (Concerns co_env.cpp:98-186, co_ctx.cpp:69-82.) -/
def impatient : List (JAct Nat) :=
  [.acc 1 7 true, .call 0 1 0 true] ++ runsOf 0 4 ++ [.tick 0, .tick 0] ++ runsOf 0 4 ++ [.acc 0 7 false]

/-- **C131, the limit.** A wait that ended with its time-out orders nothing, though it has looked at the coroutine's state under its lock: here
the read after it races with a write long before. -/
theorem C131_timeout_orders_nothing : ∃ s tr, runs jstep JSt.init impatient = some (s, tr) ∧ s.busy 0 = none ∧ (s.inst 1).w 0 = .gone ∧ Race tr 7 := by
  obtain ⟨s, tr, h, hb, hg, hl, h1, h2, h3⟩ : ∃ s tr, runs jstep JSt.init impatient = some (s, tr) ∧ s.busy 0 = none ∧ (s.inst 1).w 0 = .gone ∧
      tr.length = 12 ∧ tr[0]? = some (2, .wr 7) ∧ tr[11]? = some (0, .rd 7) ∧ ∀ e ∈ tr.drop 1, e.1 ≠ 2 :=
    ⟨_, _, rfl, by decide, by decide, by decide, by decide, by decide, by decide⟩
  refine ⟨s, tr, h, hb, hg, 0, 11, 2, 0, .wr 7, .rd 7, by omega, h1, h2, by decide, .inr rfl, .inl rfl, .inl rfl, ?_⟩
  refine not_hb (fun i => i = 0) ?_ rfl (by decide)
  intro i j a p b q hi hij ha hb' hor
  subst hi
  rw [h1] at ha; cases ha
  have hm : (b, q) ∈ tr.drop 1 := by
    refine List.mem_of_getElem? (i := j - 1) ?_
    rw [List.getElem?_drop, show 1 + (j - 1) = j by omega]; exact hb'
  rcases hor with h | ⟨l, h, _⟩
  · exact absurd h.symm (h3 _ hm)
  · cases h

end Verif.JoinHb
