import Verif.Base.Prog
import Verif.Sync.MutexInv

/-!
# C107: a co_mutex orders the accesses of its users

The model of co_mutex (`Verif.Mutex`) with the lock operations of its internal spinlock made visible, and with clients that access guarded data
while they hold the mutex, and other data at any time. The only synchronisation is that of the spinlock.
-/

namespace Verif.Mutex

open Verif.Hb Verif.Prog

/-- What a client does: a step of the mutex, or an access to `x`. (Concerns co_mutex.cpp:17-108.) -/
inductive HAct (X : Type)
  | lib (a : Act)
  | acc (t : Tid) (write : Bool) (x : X)

/-- The lock operation of the internal spinlock between two states (co_spinlock.cpp:14, 27). -/
def spinOps {X : Type} (s s' : St) : Tr Unit X :=
  match s.spin, s'.spin with
  | none, some t => [(t, .acq ())]
  | some t, none => [(t, .rel ())]
  | _, _ => []

/-- One step. `lib`: a step of the mutex, whoever makes it (co_mutex.cpp:17-108, `Verif.Mutex.step`). `acc`: client code, not in the library;
`g x`: the clients access `x` only while they hold the mutex. -/
def hstep {X : Type} (g : X → Bool) (s : St) : HAct X → Option (St × Tr Unit X)
  | .lib a => (step false s a).map fun r => (r.1, spinOps s r.1)
  | .acc t w x => if g x = true → s.pc t = .out ∧ s.hold t = true then some (s, [(t, if w then .wr x else .rd x)]) else none

/-- An access to guarded data. (Concerns co_mutex.cpp:17-108.) -/
def isAcc {X : Type} (g : X → Bool) (p : Op Unit X) : Prop := ∃ x, g x = true ∧ p.touches x

theorem isAcc.ne {X : Type} {g : X → Bool} {p : Op Unit X} (h : isAcc g p) : p ≠ Op.acq () ∧ p ≠ Op.rel () := by
  obtain ⟨x, _, rfl | rfl⟩ := h <;> simp

/-- The invariant: of every access in the past, its coroutine has the mutex still, or it has since taken the spinlock, and whoever else holds
the mutex has released the spinlock after that. (Concerns co_mutex.cpp:17-108.) -/
structure HInv {X : Type} (g : X → Bool) (s : St) (tr : Tr Unit X) : Prop where
  inv : Inv s
  spin : holder () tr = s.spin
  wf : WF tr
  sect : ∀ (i : Nat) (a : Tid) (p : Op Unit X), tr[i]? = some (a, p) → isAcc g p → (s.pc a).spin = true → ∃ n : Nat, i < n ∧ tr[n]? = some (a, Op.acq ())
  past : ∀ (i : Nat) (a : Tid) (p : Op Unit X), tr[i]? = some (a, p) → isAcc g p → s.owner = some a ∨
    ∃ n : Nat, i < n ∧ tr[n]? = some (a, Op.acq ()) ∧ ∀ c, c ≠ a → s.hold c = true → ∃ m : Nat, n < m ∧ tr[m]? = some (c, Op.rel ())
  good : ∀ (i j : Nat) (a b : Tid) (p q : Op Unit X), i < j → tr[i]? = some (a, p) → tr[j]? = some (b, q) → isAcc g p → isAcc g q → HB tr i j

theorem Inv.hold_owner {s : St} (h : Inv s) {c : Tid} (hc : s.hold c = true) : s.owner = some c := by
  have := h.loc c
  cases hp : s.pc c <;> simp only [Loc, hp] at this
  case tlRet b => cases b <;> simp only at this <;> grind
  all_goals grind

/-- What a step of the mutex does, as far as this matters here. -/
theorem step_facts {s s' : St} {a : Act} {es : List LockSpec.Ev} (hi : Inv s) (hs : step false s a = some (s', es)) :
    (∀ c, s'.hold c = true → s.hold c = true ∨ (s.spin = some c ∧ s'.spin = none)) ∧
    (∀ c, s.owner = some c → s'.owner = some c ∨ ((s.pc c).spin = true ∧ s'.spin = s.spin)) ∧
    (∀ c, (s'.pc c).spin = true → (s.pc c).spin = true ∨ (s.spin = none ∧ s'.spin = some c)) ∧
    (∀ c d, s.spin = some c → s'.spin = some d → c = d) := by
  have hsp := hi.spin
  cases a with
  | callLock t => simp only [step, St.goto] at hs; split at hs <;> cases hs; grind [Pc.spin]
  | callTry t => simp only [step, St.goto] at hs; split at hs <;> cases hs; grind [Pc.spin]
  | callUnlock t => simp only [step] at hs; split at hs <;> cases hs; grind [Pc.spin]
  | run t b =>
    have h1 := hsp t
    simp only [step, runStep] at hs
    cases hp : s.pc t <;> simp only [hp, St.acquire, St.goto] at hs <;>
      (try split at hs) <;> (try split at hs) <;> (try cases hs) <;> simp only [hp, Pc.spin] at h1 <;> grind [Pc.spin]

theorem hinv_init {X : Type} (g : X → Bool) : HInv g St.init ([] : Tr Unit X) where
  inv := inv_init
  spin := rfl
  wf k a l := by simp
  sect i a p h := by simp at h
  past i a p h := by simp at h
  good i j a b p q _ h := by simp at h

theorem hinv_step {X : Type} (g : X → Bool) (s s' : St) (a : HAct X) (tr e : Tr Unit X) (h : HInv g s tr) (hs : hstep g s a = some (s', e)) :
    HInv g s' (tr ++ e) := by
  obtain ⟨hi, hsp, hw, hk, hp, hg⟩ := h
  have hle : ∀ (k : Nat) (f : Nat × Op Unit X), tr[k]? = some f → (tr ++ e)[k]? = some f := fun k f hk => by
    rw [List.getElem?_append_left (List.getElem?_eq_some_iff.1 hk).1]; exact hk
  cases a with
  | lib a =>
    simp only [hstep, Option.map_eq_some_iff] at hs
    obtain ⟨⟨s1, es⟩, hst, heq⟩ := hs
    simp only [Prod.mk.injEq] at heq
    obtain ⟨rfl, rfl⟩ := heq
    have hi' := inv_step s a s1 es hi hst
    obtain ⟨f1, f2, f3, f4⟩ := step_facts hi hst
    -- what the step adds to the trace
    have hcase : (spinOps s s1 = ([] : Tr Unit X) ∧ s1.spin = s.spin) ∨ (∃ t, s.spin = none ∧ s1.spin = some t ∧ spinOps s s1 = ([(t, .acq ())] : Tr Unit X)) ∨
        (∃ t, s.spin = some t ∧ s1.spin = none ∧ spinOps s s1 = ([(t, .rel ())] : Tr Unit X)) := by
      simp only [spinOps]
      cases h1 : s.spin <;> cases h2 : s1.spin
      · exact .inl ⟨rfl, rfl⟩
      · exact .inr (.inl ⟨_, rfl, rfl, rfl⟩)
      · exact .inr (.inr ⟨_, rfl, rfl, rfl⟩)
      · have := f4 _ _ h1 h2; subst this; exact .inl ⟨rfl, rfl⟩
    have hold_acc : ∀ (i : Nat) (b : Tid) (p : Op Unit X), (tr ++ spinOps s s1)[i]? = some (b, p) → isAcc g p → tr[i]? = some (b, p) := by
      intro i b p hb hacc
      rcases hcase with ⟨h0, _⟩ | ⟨t, _, _, h0⟩ | ⟨t, _, _, h0⟩ <;> rw [h0] at hb
      · simpa using hb
      · rcases getElem?_snoc _ _ _ _ hb with ⟨_, hb⟩ | ⟨_, hb⟩
        · exact hb
        · cases hb; exact absurd rfl hacc.ne.1
      · rcases getElem?_snoc _ _ _ _ hb with ⟨_, hb⟩ | ⟨_, hb⟩
        · exact hb
        · cases hb; exact absurd rfl hacc.ne.2
    refine ⟨hi', ?_, ?_, ?_, ?_, ?_⟩
    · rcases hcase with ⟨h0, h1⟩ | ⟨t, h1, h2, h0⟩ | ⟨t, h1, h2, h0⟩ <;> rw [h0]
      · rw [List.append_nil, h1]; exact hsp
      · rw [holder_snoc, h2]; simp
      · rw [holder_snoc, h2]; simp
    · rcases hcase with ⟨h0, h1⟩ | ⟨t, h1, h2, h0⟩ | ⟨t, h1, h2, h0⟩ <;> rw [h0]
      · rw [List.append_nil]; exact hw
      · exact WF.snoc hw _ (fun l _ => by rw [hsp, h1]) (fun l hl => by cases hl)
      · exact WF.snoc hw _ (fun l hl => by cases hl) (fun l _ => by rw [hsp, h1])
    · intro i b p hb hacc hs1
      have hb := hold_acc i b p hb hacc
      rcases f3 b hs1 with h0 | ⟨h0, h1⟩
      · obtain ⟨n, hn, hn'⟩ := hk i b p hb hacc h0
        exact ⟨n, hn, hle _ _ hn'⟩
      · refine ⟨tr.length, (List.getElem?_eq_some_iff.1 hb).1, ?_⟩
        simp [spinOps, h0, h1]
    · intro i b p hb hacc
      have hb := hold_acc i b p hb hacc
      rcases hp i b p hb hacc with h0 | ⟨n, hn, hn', hc⟩
      · rcases f2 b h0 with h1 | ⟨h1, _⟩
        · exact .inl h1
        · obtain ⟨n, hn, hn'⟩ := hk i b p hb hacc h1
          refine .inr ⟨n, hn, hle _ _ hn', fun c hcb hch => ?_⟩
          rcases f1 c hch with h2 | ⟨h2, _⟩
          · have := hi.hold_owner h2; rw [h0] at this; cases this; exact absurd rfl hcb
          · have := (hi.spin b).1 h1; rw [h2] at this; cases this; exact absurd rfl hcb
      · refine .inr ⟨n, hn, hle _ _ hn', fun c hcb hch => ?_⟩
        rcases f1 c hch with h2 | ⟨h2, h3⟩
        · obtain ⟨m, hm, hm'⟩ := hc c hcb h2
          exact ⟨m, hm, hle _ _ hm'⟩
        · refine ⟨tr.length, (List.getElem?_eq_some_iff.1 hn').1, ?_⟩
          simp [spinOps, h2, h3]
    · intro i j b c p q hij hb hc hpa hqa
      exact hb_mono _ (hg i j b c p q hij (hold_acc _ _ _ hb hpa) (hold_acc _ _ _ hc hqa) hpa hqa)
  | acc t w x =>
    simp only [hstep] at hs
    split at hs <;> cases hs
    rename_i hc
    generalize hp0 : (if w = true then Op.wr x else Op.rd x : Op Unit X) = p at *
    have hne : p ≠ Op.acq () ∧ p ≠ Op.rel () := by subst hp0; constructor <;> split <;> simp
    have hsp' : ∀ c, holder () (tr ++ [(c, p)]) = holder () tr := by
      intro c; rw [holder_snoc]; subst hp0; cases w <;> simp
    have hw' : WF (tr ++ [(t, p)]) := WF.snoc hw _ (fun l hl => absurd hl hne.1) (fun l hl => absurd hl hne.2)
    -- an access that counts is made by the holder
    have hacc : isAcc g p → s.pc t = .out ∧ s.hold t = true := by
      rintro ⟨y, hy, hpy⟩
      refine hc ?_
      subst hp0
      cases w <;> rcases hpy with h0 | h0 <;> cases h0 <;> exact hy
    refine ⟨hi, by rw [hsp', hsp], hw', ?_, ?_, ?_⟩
    · intro i b q hb hq hpc
      rcases getElem?_snoc _ _ _ _ hb with ⟨_, hb⟩ | ⟨_, hb⟩
      · obtain ⟨n, hn, hn'⟩ := hk i b q hb hq hpc
        exact ⟨n, hn, hle _ _ hn'⟩
      · cases hb; rw [(hacc hq).1] at hpc; cases hpc
    · intro i b q hb hq
      rcases getElem?_snoc _ _ _ _ hb with ⟨_, hb⟩ | ⟨_, hb⟩
      · rcases hp i b q hb hq with h0 | ⟨n, hn, hn', hc⟩
        · exact .inl h0
        · refine .inr ⟨n, hn, hle _ _ hn', fun c hcb hch => ?_⟩
          obtain ⟨m, hm, hm'⟩ := hc c hcb hch
          exact ⟨m, hm, hle _ _ hm'⟩
      · cases hb; exact .inl (hi.hold_owner (hacc hq).2)
    · intro i j b c q r hij hb hc hqa hra
      rcases getElem?_snoc _ _ _ _ hc with ⟨hj, hc'⟩ | ⟨hj, hc'⟩
      · rcases getElem?_snoc _ _ _ _ hb with ⟨_, hb⟩ | ⟨hi', _⟩
        · exact hb_mono _ (hg i j b c q r hij hb hc' hqa hra)
        · omega
      · rcases getElem?_snoc _ _ _ _ hb with ⟨_, hb'⟩ | ⟨hi', _⟩
        · simp only [Prod.mk.injEq] at hc'
          obtain ⟨rfl, rfl⟩ := hc'
          have h2 := (hacc hra).2
          have hown := hi.hold_owner h2
          by_cases hbc : b = c
          · subst hbc; exact HB.po hij hb hc
          · rcases hp i b q hb' hqa with h0 | ⟨n, hn, hn', hcl⟩
            · rw [hown] at h0; cases h0; exact absurd rfl hbc
            · obtain ⟨m, hm, hm'⟩ := hcl c (Ne.symm hbc) h2
              -- `b` has the spinlock right after `n`, `c` right before `m`
              have hmlt : m < tr.length := (List.getElem?_eq_some_iff.1 hm').1
              have hb1 : holder () (tr.take (n + 1)) = some b := by rw [holder_succ () tr n _ hn']; simp
              have hc1 : holder () (tr.take m) = some c := (hw m c ()).2 hm'
              have hnm : HB tr n m := by
                rcases chain hw () (n + 1) b hb1 m (by omega) (by omega) with h3 | ⟨r', hr1, hr2, h3 | h3⟩
                · rw [hc1] at h3; cases h3; exact absurd rfl hbc
                · obtain ⟨c', k, h4, h5, h6, h7, h8⟩ := h3
                  rw [hc1] at h4; cases h4
                  exact (HB.po (by omega) hn' hr2).trans (h8.trans (HB.po h6 h7 hm'))
                · obtain ⟨_, _, h4, _⟩ := h3; rw [hc1] at h4; cases h4
              exact ((HB.po hn hb (hle _ _ hn')).trans (hb_mono _ hnm)).trans (HB.po (by omega) (hle _ _ hm') hc)
        · omega

theorem hinv {X : Type} (g : X → Bool) (as : List (HAct X)) :
    ∀ (s s' : St) (tr es : Tr Unit X), HInv g s tr → runs (hstep g) s as = some (s', es) → HInv g s' (tr ++ es) := by
  induction as with
  | nil => intro s s' tr es hI h; simp [runs] at h; obtain ⟨rfl, rfl⟩ := h; simpa using hI
  | cons a as ih =>
    intro s s' tr es hI h
    obtain ⟨s1, e1, e2, hs, hr, rfl⟩ := runs_cons h
    rw [← List.append_assoc]
    exact ih _ _ _ _ (hinv_step _ _ _ _ _ _ hI hs) hr

/-- **C107 (mutexes order memory).** Data that is accessed only by holders of a co_mutex has no data race, whatever the clients do, to this
data and to other data: any two accesses are ordered by happens-before, though the only synchronisation is that of the mutex's internal
spinlock. -/
theorem C107_mutex_orders_memory {X : Type} (g : X → Bool) (as : List (HAct X)) (s : St) (tr : Tr Unit X)
    (h : runs (hstep g) St.init as = some (s, tr)) (x : X) (hx : g x = true) : ¬ Race tr x := by
  have hI := hinv g as St.init s [] tr (hinv_init g) h
  simp only [List.nil_append] at hI
  rintro ⟨i, j, a, b, p, q, hij, hi, hj, _, hp, hq, _, hn⟩
  exact hn (hI.good i j a b p q hij hi hj ⟨x, hx, hp⟩ ⟨x, hx, hq⟩)

/-- Two coroutines write under the mutex, the second one after it slept in the queue: two conflicting accesses in the trace. -/
example : ∃ s tr, runs (hstep (X := Nat) fun x => x == 7) St.init
    [.lib (.callLock 1), .lib (.run 1 false), .lib (.run 1 false), .lib (.run 1 false), .acc 1 true 7, .lib (.callLock 2), .lib (.run 2 true),
      .lib (.run 2 true), .lib (.run 2 true), .lib (.run 2 true), .lib (.run 2 true), .lib (.callUnlock 1), .lib (.run 1 true), .lib (.run 1 true),
      .lib (.run 1 true), .lib (.run 2 true), .lib (.run 2 true), .lib (.run 2 true), .lib (.run 2 true), .acc 2 true 7] = some (s, tr) ∧
    tr = [(1, .acq ()), (1, .rel ()), (1, .wr 7), (2, .acq ()), (2, .rel ()), (1, .acq ()), (1, .rel ()), (2, .acq ()), (2, .rel ()), (2, .wr 7)] :=
  ⟨_, _, rfl, by decide⟩

end Verif.Mutex
