import Verif.Sync.Barrier
import Verif.Monitor.Lib

/-! # Simulation and invariants for co_barrier (helpers) -/

namespace Verif.Barrier
open Monitor

/-- Abbreviation, no counterpart in the code. (Concerns co_barrier.cpp:7-61.) -/
abbrev LowSt := Low B Unit Op Res
/-- Abbreviation, no counterpart in the code. (Concerns co_barrier.cpp:7-61.) -/
abbrev AbsSt := Abs B Unit Op Res
/-- Abbreviation, no counterpart in the code. (Concerns co_barrier.cpp:7-61.) -/
abbrev Trace := List (Ev Op Res Lin)

/-- Proof device: the specification state of a coroutine. (Concerns co_barrier.cpp:7-61.) -/
def qth : Th Unit Op Res → QTh
  | .idle => .idle
  | .ready (.arrive n) | .parked _ (.arrive n) => .arriving n .token
  | .ready .arriveWait | .parked _ .arriveWait => .arriving 1 .wait
  | .ready .arriveDrop | .parked _ .arriveDrop => .arriving 1 .drop
  | .ready (.wait s g n) | .parked _ (.wait s g n) => .atWait s g n
  | .ready (.resume g) | .parked _ (.resume g) => .inPhase g
  | .leaving r => .finished r

theorem qth_settle (wq : Unit → List Tid) (u : Tid) (x : Th Unit Op Res) : qth (settle wq u x) = qth x := by
  cases x with
  | parked c k => simp only [settle]; split <;> cases k <;> rfl
  | _ => rfl

/-- Proof device: the simulation relation. (Concerns co_barrier.cpp:7-61.) -/
structure R (M : Int) (a : AbsSt) (q : Q) : Prop where
  tokens : q.tokens = a.sh.expected
  left : q.left = a.sh.count
  phase : q.phase = a.sh.gen
  th : ∀ t, q.th t = qth (a.th t)
  range : 0 ≤ a.sh.expected ∧ 0 < a.sh.count ∧ a.sh.count ≤ M
  woken : ∀ t g, a.th t = .ready (.resume g) → g < a.sh.gen
  kind : ∀ t k, a.th t = .parked () k → k = .resume a.sh.gen

theorem R_th {M : Int} {a : AbsSt} {q : Q} {t : Tid} {k : Op} (hR : R M a q) (x : QTh)
    (hx : x = qth ((obj M).body t k a.sh).fin.th) :
    ∀ u, upd q.th t x u = qth ((after (obj M) a t k).th u) := by
  intro u
  by_cases hu : u = t
  · subst hu; simp [after_self, hx]
  · simp only [upd_other _ _ hu, after_th hu, qth_settle, hR.th]

/-- Woken coroutines come from queues that lost somebody. -/
theorem after_ready_inv {M : Int} {a : AbsSt} {t u : Tid} {k j : Op} (hu : u ≠ t)
    (h : (after (obj M) a t k).th u = .ready j) :
    a.th u = .ready j ∨ (a.th u = .parked () j ∧ u ∉ (after (obj M) a t k).wq ()) := by
  rw [after_th hu] at h
  cases hx : a.th u with
  | parked c i =>
    simp only [hx, settle] at h
    split at h
    · cases h
    · next hm => cases h; exact Or.inr ⟨rfl, hm⟩
  | ready i => simp only [hx, settle] at h; exact Or.inl h
  | _ => simp [hx, settle] at h

/-- Sections that do not notify and keep the generation. -/
theorem kinds_quiet {M : Int} {a : AbsSt} {t : Tid} {k : Op} (hw : a.Wf)
    (hwoken : ∀ t g, a.th t = .ready (.resume g) → g < a.sh.gen)
    (hkind : ∀ t k, a.th t = .parked () k → k = .resume a.sh.gen)
    (hs : ((obj M).body t k a.sh).sigs = []) (hg : ((obj M).body t k a.sh).sh.gen = a.sh.gen)
    (hf1 : ∀ g, ((obj M).body t k a.sh).fin ≠ .next (.resume g))
    (hf2 : ∀ j, ((obj M).body t k a.sh).fin = .park () j → j = .resume a.sh.gen) :
    (∀ u g, (after (obj M) a t k).th u = .ready (.resume g) → g < (after (obj M) a t k).sh.gen) ∧
    (∀ u j, (after (obj M) a t k).th u = .parked () j → j = .resume (after (obj M) a t k).sh.gen) := by
  have hsh : (after (obj M) a t k).sh.gen = a.sh.gen := hg
  rw [hsh]
  constructor
  · intro u g hu
    by_cases hut : u = t
    · subst hut
      rw [after_self] at hu
      cases hb : ((obj M).body u k a.sh).fin with
      | next j => rw [hb] at hu; cases hu; exact absurd hb (hf1 g)
      | _ => rw [hb] at hu; cases hu
    · rcases after_ready_inv hut hu with h | ⟨h, hn⟩
      · exact hwoken u g h
      · exfalso
        apply hn
        have hm := (hw.mem () u).2 ⟨_, h⟩
        simp only [after, hs, List.foldl_nil]
        rw [mem_enqueue]; exact Or.inl hm
  · intro u j hu
    by_cases hut : u = t
    · subst hut
      rw [after_self] at hu
      cases hb : ((obj M).body u k a.sh).fin with
      | park c j => rw [hb] at hu; cases hu; exact hf2 _ hb
      | _ => rw [hb] at hu; cases hu
    · exact hkind u j (after_parked hut hu).1

theorem sim (M : Int) (a : AbsSt) (x : AAct Op) (a' : AbsSt) (es : Trace) (q : Q) (hw : a.Wf) (hR : R M a q)
    (hcl : ∀ t k, x = .call t k → k.callable) (hs : a.step (obj M) x = some (a', es)) :
    ∃ q', accepts (acc M) q es = some q' ∧ R M a' q' := by
  have h1 := hR.tokens
  have h1' := hR.left
  have h1'' := hR.phase
  have h2 := hR.th
  have h3 := hR.range
  have h4 := hR.woken
  have h5 := hR.kind
  cases x with
  | call t k =>
    have hcl := hcl t k rfl
    obtain ⟨ht, rfl, rfl⟩ := call_inv hs
    have hq : q.th t = .idle := by rw [h2, ht]; rfl
    cases k
    case resume => exact absurd hcl (by simp [Op.callable])
    all_goals
      simp only [accepts, acc, hq, if_true, Option.bind_some]
      refine ⟨_, rfl, h1, h1', h1'', fun u => ?_, h3, fun u g hu => ?_, fun u j hu => ?_⟩
      · by_cases hu : u = t
        · subst hu; simp [qth]
        · simp [hu, h2]
      · by_cases hut : u = t
        · subst hut; simp at hu
        · simp only [upd_other _ _ hut] at hu; exact h4 u g hu
      · by_cases hut : u = t
        · subst hut; simp at hu
        · simp only [upd_other _ _ hut] at hu; exact h5 u j hu
  | leave t =>
    obtain ⟨v, ht, rfl, rfl⟩ := leave_inv hs
    have hq : q.th t = .finished v := by rw [h2, ht]; rfl
    simp only [accepts, acc, hq, if_true, Option.bind_some]
    refine ⟨_, rfl, h1, h1', h1'', fun u => ?_, h3, fun u g hu => ?_, fun u j hu => ?_⟩
    · by_cases hu : u = t
      · subst hu; simp [qth]
      · simp [hu, h2]
    · by_cases hut : u = t
      · subst hut; simp at hu
      · simp only [upd_other _ _ hut] at hu; exact h4 u g hu
    · by_cases hut : u = t
      · subst hut; simp at hu
      · simp only [upd_other _ _ hut] at hu; exact h5 u j hu
  | run t =>
    obtain ⟨k, ht, rfl, rfl⟩ := run_inv hs
    have hq : q.th t = qth (.ready k) := by rw [h2, ht]
    cases k with
    | arrive n =>
      by_cases hc : a.sh.expected - n < 0
      · have hb : (obj M).body t (.arrive n) a.sh = ⟨a.sh, [.refused t], [], .ret .threw⟩ := by
          simp [obj, arriveBody, hc]
        have hq' : q.th t = .arriving n .token := hq
        have hcond : q.tokens < n := by omega
        simp only [hb, List.map_cons, List.map_nil, accepts, acc, hq', if_pos hcond, Option.bind_some]
        have hk := kinds_quiet (M := M) (t := t) (k := .arrive n) hw h4 h5 (by rw [hb]) (by rw [hb])
          (by rw [hb]; intro g h; cases h) (by rw [hb]; intro j h; cases h)
        exact ⟨_, rfl, by simpa [after, hb] using h1, by simpa [after, hb] using h1', by simpa [after, hb] using h1'',
          R_th hR _ (by rw [hb]; rfl), by simpa [after, hb] using h3, hk.1, hk.2⟩
      · have hb : (obj M).body t (.arrive n) a.sh = ⟨{ a.sh with expected := a.sh.expected - n },
            [.arrived t a.sh.gen n], [], .ret (.token a.sh.gen n)⟩ := by simp only [obj, arriveBody, if_neg hc]
        have hq' : q.th t = .arriving n .token := hq
        have hcond : n ≤ q.tokens ∧ a.sh.gen = q.phase := ⟨by omega, h1''.symm⟩
        simp only [hb, List.map_cons, List.map_nil, accepts, acc, if_pos hcond, if_pos hq', Option.bind_some]
        have hk := kinds_quiet (M := M) (t := t) (k := .arrive n) hw h4 h5 (by rw [hb]) (by rw [hb])
          (by rw [hb]; intro g h; cases h) (by rw [hb]; intro j h; cases h)
        exact ⟨_, rfl, by simp [after, hb, h1], by simpa [after, hb] using h1', by simpa [after, hb] using h1'',
          R_th hR _ (by rw [hb]; rfl), by simp [after, hb]; omega, hk.1, hk.2⟩
    | arriveWait =>
      by_cases hc : a.sh.expected - (1 : Nat) < 0
      · have hb : (obj M).body t .arriveWait a.sh = ⟨a.sh, [.refused t], [], .ret .threw⟩ := by
          simp only [obj, arriveBody, if_pos hc]
        have hq' : q.th t = .arriving 1 .wait := hq
        have hcond : q.tokens < (1 : Nat) := by omega
        simp only [hb, List.map_cons, List.map_nil, accepts, acc, hq', if_pos hcond, Option.bind_some]
        have hk := kinds_quiet (M := M) (t := t) (k := .arriveWait) hw h4 h5 (by rw [hb]) (by rw [hb])
          (by rw [hb]; intro g h; cases h) (by rw [hb]; intro j h; cases h)
        exact ⟨_, rfl, by simpa [after, hb] using h1, by simpa [after, hb] using h1', by simpa [after, hb] using h1'',
          R_th hR _ (by rw [hb]; rfl), by simpa [after, hb] using h3, hk.1, hk.2⟩
      · have hb : (obj M).body t .arriveWait a.sh = ⟨{ a.sh with expected := a.sh.expected - (1 : Nat) },
            [.arrived t a.sh.gen 1], [], .next (.wait true a.sh.gen 1)⟩ := by simp only [obj, arriveBody, if_neg hc]
        have hq' : q.th t = .arriving 1 .wait := hq
        have hq'' : ¬ q.th t = .arriving 1 .token := by rw [hq']; simp
        have hcond : ((1 : Nat) : Int) ≤ q.tokens ∧ a.sh.gen = q.phase := ⟨by omega, h1''.symm⟩
        simp only [hb, List.map_cons, List.map_nil, accepts, acc, if_pos hcond, if_neg hq'', if_pos hq',
          Option.bind_some]
        have hk := kinds_quiet (M := M) (t := t) (k := .arriveWait) hw h4 h5 (by rw [hb]) (by rw [hb])
          (by rw [hb]; intro g h; cases h) (by rw [hb]; intro j h; cases h)
        exact ⟨_, rfl, by simp [after, hb, h1], by simpa [after, hb] using h1', by simpa [after, hb] using h1'',
          R_th hR _ (by rw [hb]; rfl), by simp [after, hb]; omega, hk.1, hk.2⟩
    | arriveDrop =>
      by_cases hc : a.sh.expected - (1 : Nat) < 0
      · have hb : (obj M).body t .arriveDrop a.sh = ⟨a.sh, [.refused t], [], .ret .threw⟩ := by
          simp only [obj, arriveBody, if_pos hc]
        have hq' : q.th t = .arriving 1 .drop := hq
        have hcond : q.tokens < (1 : Nat) := by omega
        simp only [hb, List.map_cons, List.map_nil, accepts, acc, hq', if_pos hcond, Option.bind_some]
        have hk := kinds_quiet (M := M) (t := t) (k := .arriveDrop) hw h4 h5 (by rw [hb]) (by rw [hb])
          (by rw [hb]; intro g h; cases h) (by rw [hb]; intro j h; cases h)
        exact ⟨_, rfl, by simpa [after, hb] using h1, by simpa [after, hb] using h1', by simpa [after, hb] using h1'',
          R_th hR _ (by rw [hb]; rfl), by simpa [after, hb] using h3, hk.1, hk.2⟩
      · have hb : (obj M).body t .arriveDrop a.sh = ⟨{ a.sh with expected := a.sh.expected - (1 : Nat) },
            [.dropped t a.sh.gen], [], .ret .ok⟩ := by simp only [obj, arriveBody, if_neg hc]
        have hcond : 1 ≤ q.tokens ∧ a.sh.gen = q.phase ∧ q.th t = .arriving 1 .drop := ⟨by omega, h1''.symm, hq⟩
        simp only [hb, List.map_cons, List.map_nil, accepts, acc, if_pos hcond, Option.bind_some]
        have hk := kinds_quiet (M := M) (t := t) (k := .arriveDrop) hw h4 h5 (by rw [hb]) (by rw [hb])
          (by rw [hb]; intro g h; cases h) (by rw [hb]; intro j h; cases h)
        exact ⟨_, rfl, by simp [after, hb, h1], by simpa [after, hb] using h1', by simpa [after, hb] using h1'',
          R_th hR _ (by rw [hb]; rfl), by simp [after, hb]; omega, hk.1, hk.2⟩
    | resume g =>
      have hb : (obj M).body t (.resume g) a.sh = ⟨a.sh, [.released t g], [], .ret .ok⟩ := rfl
      have hcond : q.th t = .inPhase g ∧ g < q.phase := ⟨hq, by rw [h1'']; exact h4 t g ht⟩
      simp only [hb, List.map_cons, List.map_nil, accepts, acc, if_pos hcond, Option.bind_some]
      have hk := kinds_quiet (M := M) (t := t) (k := .resume g) hw h4 h5 (by rw [hb]) (by rw [hb])
        (by rw [hb]; intro g h; cases h) (by rw [hb]; intro j h; cases h)
      exact ⟨_, rfl, by simpa [after, hb] using h1, by simpa [after, hb] using h1', by simpa [after, hb] using h1'',
        R_th hR _ (by rw [hb]; rfl), by simpa [after, hb] using h3, hk.1, hk.2⟩
    | wait same g n =>
      have hq' : q.th t = .atWait same g n := hq
      by_cases hbad : (g ≠ a.sh.gen ∨ same = false) ∨ a.sh.count - n < 0
      · have hb : (obj M).body t (.wait same g n) a.sh = ⟨a.sh, [.badWait t], [], .ret .threw⟩ := by
          simp only [obj]
          rcases hbad with h | h
          · rw [if_pos h]
          · rw [if_pos h]; split <;> rfl
        have hcond : same = false ∨ g ≠ q.phase ∨ q.left < n := by
          rw [h1'', h1']
          rcases hbad with (h | h) | h
          · exact Or.inr (Or.inl h)
          · exact Or.inl h
          · exact Or.inr (Or.inr (by omega))
        simp only [hb, List.map_cons, List.map_nil, accepts, acc, hq', if_pos hcond, Option.bind_some]
        have hk := kinds_quiet (M := M) (t := t) (k := .wait same g n) hw h4 h5 (by rw [hb]) (by rw [hb])
          (by rw [hb]; intro g h; cases h) (by rw [hb]; intro j h; cases h)
        exact ⟨_, rfl, by simpa [after, hb] using h1, by simpa [after, hb] using h1', by simpa [after, hb] using h1'',
          R_th hR _ (by rw [hb]; rfl), by simpa [after, hb] using h3, hk.1, hk.2⟩
      · have hg : g = a.sh.gen := Decidable.byContradiction fun h => hbad (Or.inl (Or.inl h))
        have hsame : same = true := by
          cases same with
          | true => rfl
          | false => exact absurd (Or.inl (Or.inr rfl)) hbad
        have hcn : ¬ a.sh.count - n < 0 := fun h => hbad (Or.inr h)
        subst hg hsame
        have hcond : q.th t = .atWait true a.sh.gen n ∧ a.sh.gen = q.phase ∧ n ≤ q.left := ⟨hq', h1''.symm, by omega⟩
        by_cases hz : a.sh.count - n = 0
        · have hb : (obj M).body t (.wait true a.sh.gen n) a.sh = ⟨⟨M, M, a.sh.gen + 1⟩,
              [.waited t a.sh.gen n, .released t a.sh.gen], [.all ()], .ret .ok⟩ := by
            simp [obj, hz]
          have hl : q.left = n := by omega
          have hlt : a.sh.gen < q.phase + 1 := by omega
          simp only [hb, List.map_cons, List.map_nil, accepts, acc, if_pos hcond, if_pos hl, Option.bind_some, upd_same,
            true_and, if_pos hlt]
          refine ⟨_, rfl, by simp [after, hb], by simp [after, hb], by simp [after, hb, h1''], fun u => ?_, ?_, ?_, ?_⟩
          · have hth := R_th hR (t := t) (k := .wait true a.sh.gen n) (.finished .ok) (by rw [hb]; rfl) u
            rw [← hth]
            by_cases hu : u = t
            · subst hu; simp
            · simp [hu]
          · simp only [after, hb]; omega
          · intro u g' hu
            have hgen : (after (obj M) a t (.wait true a.sh.gen n)).sh.gen = a.sh.gen + 1 := by simp [after, hb]
            rw [hgen]
            by_cases hut : u = t
            · subst hut; rw [after_self, hb] at hu; cases hu
            · rcases after_ready_inv hut hu with h | ⟨h, _⟩
              · have := h4 u g' h; omega
              · have := h5 u _ h; cases this; omega
          · intro u j hu
            exfalso
            by_cases hut : u = t
            · subst hut; rw [after_self, hb] at hu; cases hu
            · have := (after_parked hut hu).2
              simp [after, hb, notify, enqueue] at this
        · have hb : (obj M).body t (.wait true a.sh.gen n) a.sh = ⟨{ a.sh with count := a.sh.count - n },
              [.waited t a.sh.gen n], [], .park () (.resume a.sh.gen)⟩ := by
            simp only [obj]
            rw [if_neg (by simp), if_neg hcn, if_neg hz]
          have hl : ¬ q.left = n := by omega
          simp only [hb, List.map_cons, List.map_nil, accepts, acc, if_pos hcond, if_neg hl, Option.bind_some]
          have hk := kinds_quiet (M := M) (t := t) (k := .wait true a.sh.gen n) hw h4 h5 (by rw [hb]) (by rw [hb])
            (by rw [hb]; intro g h; cases h) (by rw [hb]; intro j h; cases h; rfl)
          exact ⟨_, rfl, by simpa [after, hb] using h1, by simp [after, hb, h1'], by simpa [after, hb] using h1'',
            R_th hR _ (by rw [hb]; rfl), by simp [after, hb]; omega, hk.1, hk.2⟩

end Verif.Barrier
