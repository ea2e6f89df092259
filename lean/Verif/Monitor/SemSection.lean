import Verif.Monitor.VisibleObjs
import Mathlib.Data.List.Dedup
import Mathlib.Data.List.Nodup

/-!
# C127: n permits let at most n in, one permit protects data

A client takes a permit before a section of its own code and puts it back after it. On the machine of Verif/Monitor/Visible.lean: the real
`co_counting_semaphore` over the real `co_mutex` and condition variable, with the accesses of the clients in the trace.
-/

namespace Verif.Monitor
open Verif.Hb

variable {X : Type}

/-- Permits taken minus permits put back in the sections of a trace (co_counting_semaphore.h:45, 58, 80). -/
def net (tr : Tr Unit (Loc Semaphore.Lin X)) : Int := Semaphore.taken (secEvs tr) - Semaphore.given (secEvs tr)

/-- The permits that coroutine `a` has: those it took (co_counting_semaphore.h:45, 80) minus those it put back (58). -/
def permits (tr : Tr Unit (Loc Semaphore.Lin X)) (a : Tid) : Int := net (tr.filter (·.1 == a))

/-- Coroutines put back only what they have taken, at every time: a condition on programs; `release` (co_counting_semaphore.h:62-69) does not check it. -/
def Returns (tr : Tr Unit (Loc Semaphore.Lin X)) : Prop := ∀ l a, 0 ≤ permits (tr.take l) a

/-- `x` is accessed only by coroutines that have a permit: a condition on programs, not in the library. (Concerns co_counting_semaphore.h:19-118.) -/
def Kept (tr : Tr Unit (Loc Semaphore.Lin X)) (x : X) : Prop :=
  ∀ i a p, tr[i]? = some (a, p) → p.touches (.own x) → 0 < permits (tr.take i) a

theorem net_nil : net ([] : Tr Unit (Loc Semaphore.Lin X)) = 0 := rfl

theorem net_append (tr tr' : Tr Unit (Loc Semaphore.Lin X)) : net (tr ++ tr') = net tr + net tr' := by
  simp only [net, secEvs_append, Semaphore.taken, Semaphore.given, List.countP_append]; push_cast; omega

theorem net_cons (e : Nat × Op Unit (Loc Semaphore.Lin X)) (tr : Tr Unit (Loc Semaphore.Lin X)) : net (e :: tr) = net [e] + net tr :=
  net_append [e] tr

theorem sum_ite (S : List Nat) (hS : S.Nodup) (a : Nat) (v : Int) (ha : a ∈ S) : (S.map fun b => if a = b then v else 0).sum = v := by
  induction S with
  | nil => cases ha
  | cons b S ih =>
    rw [List.nodup_cons] at hS
    simp only [List.map_cons, List.sum_cons]
    by_cases hab : a = b
    · subst hab
      have : (S.map fun b => if a = b then v else 0).sum = 0 := by
        clear ih ha
        have hS := hS.1
        induction S with
        | nil => rfl
        | cons c S ih =>
          simp only [List.mem_cons, not_or] at hS
          simp only [List.map_cons, List.sum_cons, if_neg hS.1]
          rw [ih ⟨hS.2, by simp_all⟩ hS.2]; rfl
      simp [this]
    · rw [if_neg hab, ih hS.2 (by simpa [hab] using ha)]; omega

theorem sum_add (S : List Nat) (f g : Nat → Int) : (S.map fun b => f b + g b).sum = (S.map f).sum + (S.map g).sum := by
  induction S with
  | nil => rfl
  | cons b S ih => simp only [List.map_cons, List.sum_cons, ih]; omega

/-- All permits that are out are with somebody. -/
theorem net_sum (S : List Nat) (hS : S.Nodup) (tr : Tr Unit (Loc Semaphore.Lin X)) (h : ∀ e ∈ tr, e.1 ∈ S) : (S.map (permits tr)).sum = net tr := by
  induction tr with
  | nil =>
    clear h hS
    induction S with
    | nil => rfl
    | cons b S ih => simp only [List.map_cons, List.sum_cons, ih]; rfl
  | cons e tr ih =>
    rw [net_cons, ← ih (fun e he => h e (by simp [he])), ← sum_ite S hS e.1 (net [e]) (h e (by simp)), ← sum_add]
    congr 1
    apply List.map_congr_left
    intro b _
    simp only [permits, List.filter_cons]
    by_cases hb : e.1 = b
    · rw [if_pos (by simp [hb]), if_pos hb, net_cons]
    · rw [if_neg (by simp [hb]), if_neg hb]; omega

theorem sum_nonneg (S : List Nat) (f : Nat → Int) (h : ∀ b ∈ S, 0 ≤ f b) : 0 ≤ (S.map f).sum := by
  induction S with
  | nil => simp
  | cons b S ih =>
    have := ih fun b hb => h b (by simp [hb])
    have := h b (by simp)
    simp only [List.map_cons, List.sum_cons]; omega

theorem sum_len (S : List Nat) (f : Nat → Int) (h : ∀ b ∈ S, 0 < f b) : (S.length : Int) ≤ (S.map f).sum := by
  induction S with
  | nil => simp
  | cons b S ih =>
    have := ih fun b hb => h b (by simp [hb])
    have := h b (by simp)
    simp only [List.map_cons, List.sum_cons, List.length_cons]; push_cast; omega

/-- Among coroutines that put back only what they have taken, there are not more with a permit than there are permits out. -/
theorem holders_le (tr : Tr Unit (Loc Semaphore.Lin X)) (h : ∀ a, 0 ≤ permits tr a) (ts : List Nat) (hn : ts.Nodup) (ht : ∀ t ∈ ts, 0 < permits tr t) :
    (ts.length : Int) ≤ net tr := by
  let rest := ((tr.map (·.1)).filter (· ∉ ts)).dedup
  have hS : (ts ++ rest).Nodup := by
    rw [List.nodup_append]
    refine ⟨hn, List.nodup_dedup _, ?_⟩
    rintro a ha b hb rfl
    simp only [rest, List.mem_dedup, List.mem_filter, decide_eq_true_eq] at hb
    exact hb.2 ha
  rw [← net_sum _ hS tr, List.map_append, List.sum_append]
  · have := sum_len ts _ ht
    have := sum_nonneg rest _ fun b _ => h b
    omega
  · intro e he
    by_cases hm : e.1 ∈ ts
    · simp [hm]
    · rw [List.mem_append]; right
      simp only [rest, List.mem_dedup, List.mem_filter, decide_eq_true_eq]
      exact ⟨List.mem_map.2 ⟨e, he, rfl⟩, hm⟩

/-- At every point of an execution at most as many permits are out as there were at first. -/
theorem net_le (M d : Int) (hd : 0 ≤ d ∧ d ≤ M) (as : List (VAct Semaphore.Op X)) (v : Obs Int Semaphore.Cv Semaphore.Op Bool Semaphore.Lin)
    (tr : Tr Unit (Loc Semaphore.Lin X)) (h : runs (vstep (Semaphore.obj M)) (Obs.init d) as = some (v, tr)) (l : Nat) (hl : l ≤ tr.length) :
    net (tr.take l) ≤ d := by
  obtain ⟨bs, f, es, es2, hb, he, _⟩ := vrun_at h l hl
  obtain ⟨_, ⟨hc1, hc2, _⟩, _⟩ := C24_semaphore_real_mutex M d hd bs f es hb
  rw [← given_lin es, ← taken_lin es, he] at hc1
  simp only [net]
  omega

/-- **C127**: in every execution in which coroutines put back only permits they have taken, at every time at most `d` of them have one, where
`d` is the number of permits at first. So at most `d` are in a section between `acquire()` (or a successful `try_acquire()`) and `release()`. -/
theorem C127_at_most (M d : Int) (hd : 0 ≤ d ∧ d ≤ M) (as : List (VAct Semaphore.Op X)) (v : Obs Int Semaphore.Cv Semaphore.Op Bool Semaphore.Lin)
    (tr : Tr Unit (Loc Semaphore.Lin X)) (h : runs (vstep (Semaphore.obj M)) (Obs.init d) as = some (v, tr)) (hf : Returns tr) (l : Nat)
    (hl : l ≤ tr.length) (ts : List Tid) (hn : ts.Nodup) (ht : ∀ t ∈ ts, 0 < permits (tr.take l) t) : (ts.length : Int) ≤ d :=
  Int.le_trans (holders_le _ (hf l) ts hn ht) (net_le M d hd as v tr h l hl)

/-- What one more operation changes. -/
theorem permits_succ {tr : Tr Unit (Loc Semaphore.Lin X)} {n a : Nat} {p : Op Unit (Loc Semaphore.Lin X)} (h : tr[n]? = some (a, p)) (b : Nat) :
    permits (tr.take (n + 1)) b = permits (tr.take n) b + if a = b then net [(a, p)] else 0 := by
  simp only [permits]
  rw [List.take_add_one, h, Option.toList_some, List.filter_append, net_append]
  by_cases hab : a = b
  · subst hab; simp
  · rw [if_neg hab, List.filter_cons, if_neg (by simp [hab])]; simp [net_nil]

/-- Only critical sections change how many permits there are. -/
theorem net_one {a : Nat} {p : Op Unit (Loc Semaphore.Lin X)} (h : net [(a, p)] ≠ 0) : ∃ l, p = .wr (.data l) := by
  rcases p with l | l | d | d
  · simp [net, secEvs, Semaphore.taken, Semaphore.given] at h
  · simp [net, secEvs, Semaphore.taken, Semaphore.given] at h
  · simp [net, secEvs, Semaphore.taken, Semaphore.given] at h
  · cases d with
    | data l => exact ⟨l, rfl⟩
    | own x => simp [net, secEvs, Semaphore.taken, Semaphore.given] at h

/-- Who had a permit and has none later has put it back in between, in a section of its own. -/
theorem lost {tr : Tr Unit (Loc Semaphore.Lin X)} {a : Nat} (i : Nat) : ∀ k, i + k ≤ tr.length → 0 < permits (tr.take i) a →
    ¬ 0 < permits (tr.take (i + k)) a →
    ∃ n l, i ≤ n ∧ n < i + k ∧ tr[n]? = some (a, .wr (.data l)) ∧ 0 < permits (tr.take n) a ∧ ¬ 0 < permits (tr.take (n + 1)) a := by
  intro k
  induction k with
  | zero => intro _ h1 h2; exact absurd h1 h2
  | succ k ih =>
    intro hk h1 h2
    by_cases h : 0 < permits (tr.take (i + k)) a
    · obtain ⟨⟨b, p⟩, hb⟩ : ∃ e, tr[i + k]? = some e := ⟨_, List.getElem?_eq_getElem (by omega)⟩
      have h3 := permits_succ hb a
      have h4 : b = a ∧ net [(b, p)] ≠ 0 := by
        constructor
        · apply Decidable.byContradiction; intro hne; rw [if_neg hne] at h3; rw [← Nat.add_assoc, h3] at h2; omega
        · intro h0; rw [h0] at h3; rw [← Nat.add_assoc, h3] at h2; split at h2 <;> omega
      obtain ⟨rfl, h4⟩ := h4
      obtain ⟨l, rfl⟩ := net_one h4
      exact ⟨i + k, l, by omega, by omega, hb, h, by rw [Nat.add_assoc]; exact h2⟩
    · obtain ⟨n, l, h3, h4, h5⟩ := ih (by omega) h1 h
      exact ⟨n, l, h3, by omega, h5⟩

/-- Who has a permit and had none has taken it in between, in a section of its own. -/
theorem won {tr : Tr Unit (Loc Semaphore.Lin X)} {a : Nat} (i : Nat) : ∀ k, i + k ≤ tr.length → ¬ 0 < permits (tr.take i) a →
    0 < permits (tr.take (i + k)) a → ∃ n l, i ≤ n ∧ n < i + k ∧ tr[n]? = some (a, .wr (.data l)) := by
  intro k
  induction k with
  | zero => intro _ h1 h2; exact absurd h2 h1
  | succ k ih =>
    intro hk h1 h2
    by_cases h : 0 < permits (tr.take (i + k)) a
    · obtain ⟨n, l, h3, h4, h5⟩ := ih (by omega) h1 h
      exact ⟨n, l, h3, by omega, h5⟩
    · obtain ⟨⟨b, p⟩, hb⟩ : ∃ e, tr[i + k]? = some e := ⟨_, List.getElem?_eq_getElem (by omega)⟩
      have h3 := permits_succ hb a
      have h4 : b = a ∧ net [(b, p)] ≠ 0 := by
        constructor
        · apply Decidable.byContradiction; intro hne; rw [if_neg hne] at h3; rw [← Nat.add_assoc, h3] at h2; omega
        · intro h0; rw [h0] at h3; rw [← Nat.add_assoc, h3] at h2; split at h2 <;> omega
      obtain ⟨rfl, h4⟩ := h4
      obtain ⟨l, rfl⟩ := net_one h4
      exact ⟨i + k, l, by omega, by omega, hb⟩

/-- **C127**: data that coroutines access only while they have a permit of a semaphore with one permit has no race. -/
theorem C127_one_permit_protects (M : Int) (hM : 1 ≤ M) (as : List (VAct Semaphore.Op X)) (v : Obs Int Semaphore.Cv Semaphore.Op Bool Semaphore.Lin)
    (tr : Tr Unit (Loc Semaphore.Lin X)) (h : runs (vstep (Semaphore.obj M)) (Obs.init 1) as = some (v, tr)) (hf : Returns tr) (x : X)
    (hk : Kept tr x) : ¬ Race tr (.own x) := by
  rintro ⟨i, j, a, b, p, q, hij, hi, hj, hab, hp, hq, _, hnot⟩
  have hlen := (List.getElem?_eq_some_iff.1 hj).1
  have two : ∀ l, l ≤ tr.length → 0 < permits (tr.take l) a → 0 < permits (tr.take l) b → False := by
    intro l hl ha hb
    have := C127_at_most M 1 ⟨by omega, hM⟩ as v tr h hf l hl [a, b] (by simp [hab]) (by simp [ha, hb])
    simp at this
  have ha := hk i a p hi hp
  have hb := hk j b q hj hq
  obtain ⟨k, rfl⟩ : ∃ k, j = i + k := ⟨j - i, by omega⟩
  obtain ⟨n, l, h1, h2, h3, h4, h5⟩ := lost (a := a) i k (by omega) ha (fun h => two _ (by omega) h hb)
  have hnb : ¬ 0 < permits (tr.take n) b := fun h => two n (by omega) h4 h
  obtain ⟨k', hk'⟩ : ∃ k', i + k = n + k' := ⟨i + k - n, by omega⟩
  obtain ⟨m, l', h6, h7, h8⟩ := won (a := b) n k' (by omega) hnb (by rw [← hk']; exact hb)
  have hin : i ≠ n := by
    rintro rfl
    rw [hi] at h3
    simp only [Option.some.injEq, Prod.mk.injEq] at h3
    rw [h3.2] at hp
    simp [Op.touches] at hp
  exact hnot (C125_sections_order _ _ as v tr h i n m (i + k) a b p q l l' hi h3 h8 hj (by omega) h6 (by omega))

/-! ## Cases -/

/-- To check the first condition: only as far as the trace is long, and for those who act in it. -/
theorem returns_of {tr : Tr Unit (Loc Semaphore.Lin X)} (h : ∀ l ∈ List.range (tr.length + 1), ∀ a ∈ tr.map (·.1), 0 ≤ permits (tr.take l) a) : Returns tr := by
  intro l a
  by_cases ha : a ∈ tr.map (·.1)
  · by_cases hl : l ≤ tr.length
    · exact h l (by simp; omega) a ha
    · rw [List.take_of_length_le (by omega), ← List.take_length (l := tr)]
      exact h tr.length (by simp) a ha
  · have : (tr.take l).filter (·.1 == a) = [] := by
      rw [List.filter_eq_nil_iff]
      intro e he h'
      exact ha (List.mem_map.2 ⟨e, List.mem_of_mem_take he, by simpa using h'⟩)
    simp only [permits, this, net_nil]; omega

/-- To check the second condition. -/
theorem kept_of [DecidableEq X] {tr : Tr Unit (Loc Semaphore.Lin X)} {x : X}
    (h : ∀ i ∈ List.range tr.length, ∀ e ∈ tr[i]?, (e.2 = .rd (.own x) ∨ e.2 = .wr (.own x)) → 0 < permits (tr.take i) e.1) : Kept tr x := by
  intro i a p hi hp
  exact h i (by simp [(List.getElem?_eq_some_iff.1 hi).1]) (a, p) hi hp

/-- One permit: coroutine 1 takes it, writes data 7 and puts it back; 2 takes it and writes. (Concerns co_counting_semaphore.h:19-118.) -/
def inTurn : List (VAct Semaphore.Op Nat) :=
  [.lib (.call 1 .acquire)] ++ steps 1 13 ++ [.own 1 true 7, .lib (.call 1 (.release 0))] ++ steps 1 13 ++ [.lib (.call 2 .acquire)] ++ steps 2 13 ++
    [.own 2 true 7]

/-- What comes out of it. (Concerns co_counting_semaphore.h:19-118.) -/
def inTurnTr : Tr Unit (Loc Semaphore.Lin Nat) :=
  [(1, .acq ()), (1, .rel ()), (1, .wr (.data [.took 1])), (1, .acq ()), (1, .rel ()), (1, .wr (.own 7)), (1, .acq ()), (1, .rel ()),
    (1, .wr (.data [.gave 1])), (1, .acq ()), (1, .rel ()), (2, .acq ()), (2, .rel ()), (2, .wr (.data [.took 2])), (2, .acq ()), (2, .rel ()),
    (2, .wr (.own 7))]

/-- The conditions hold of it, and both write the data. -/
example : (∃ v, runs (vstep (Semaphore.obj 1)) (Obs.init 1) inTurn = some (v, inTurnTr)) ∧ Returns inTurnTr ∧ Kept inTurnTr 7 ∧
    inTurnTr[5]? = some (1, .wr (.own 7)) ∧ inTurnTr[16]? = some (2, .wr (.own 7)) :=
  ⟨⟨_, rfl⟩, returns_of (by decide), kept_of (by decide), rfl, rfl⟩

/-- With two permits: 1 and 2 take one each and write data 7. (Concerns co_counting_semaphore.h:19-118.) -/
def both : List (VAct Semaphore.Op Nat) :=
  [.lib (.call 1 .acquire)] ++ steps 1 13 ++ [.own 1 true 7, .lib (.call 2 .acquire)] ++ steps 2 13 ++ [.own 2 true 7]

/-- What comes out of it. (Concerns co_counting_semaphore.h:19-118.) -/
def bothTr : Tr Unit (Loc Semaphore.Lin Nat) :=
  [(1, .acq ()), (1, .rel ()), (1, .wr (.data [.took 1])), (1, .acq ()), (1, .rel ()), (1, .wr (.own 7)), (2, .acq ()), (2, .rel ()),
    (2, .wr (.data [.took 2])), (2, .acq ()), (2, .rel ()), (2, .wr (.own 7))]

/-- Two coroutines have a permit, as many as there are. -/
example : (∃ v, runs (vstep (Semaphore.obj 2)) (Obs.init 2) both = some (v, bothTr)) ∧ Returns bothTr ∧ 0 < permits bothTr 1 ∧ 0 < permits bothTr 2 :=
  ⟨⟨_, rfl⟩, returns_of (by decide), by decide, by decide⟩

/-- **C127**, its limit: two permits do not protect data. -/
theorem C127_two_permits_race : ∃ v tr, runs (vstep (Semaphore.obj 2)) (Obs.init 2) both = some (v, tr) ∧ Returns tr ∧ Kept tr 7 ∧ Race tr (.own 7) := by
  refine ⟨_, bothTr, rfl, returns_of (by decide), kept_of (by decide), ?_⟩
  refine ⟨5, 11, 1, 2, _, _, by decide, rfl, rfl, by decide, .inr rfl, .inr rfl, .inl rfl, ?_⟩
  refine not_hb (fun i => i = 5) ?_ rfl (by decide)
  rintro i j a p b q rfl hj h1 h2 h3
  simp only [bothTr, List.getElem?_cons_succ, List.getElem?_cons_zero, Option.some.injEq, Prod.mk.injEq] at h1
  obtain ⟨rfl, rfl⟩ := h1
  have hlt := (List.getElem?_eq_some_iff.1 h2).1
  simp only [bothTr, List.length_cons, List.length_nil] at hlt
  have : j = 6 ∨ j = 7 ∨ j = 8 ∨ j = 9 ∨ j = 10 ∨ j = 11 := by omega
  rcases this with rfl | rfl | rfl | rfl | rfl | rfl <;> simp [bothTr] at h2 <;> obtain ⟨rfl, rfl⟩ := h2 <;> simp at h3

/-- One permit, which 1 takes before it writes data 7; 3, which has none, puts one back; 2 takes it and writes. (Concerns co_counting_semaphore.h:19-118.) -/
def stranger : List (VAct Semaphore.Op Nat) :=
  [.lib (.call 1 .acquire)] ++ steps 1 13 ++ [.own 1 true 7, .lib (.call 3 (.release 0))] ++ steps 3 13 ++ [.lib (.call 2 .acquire)] ++ steps 2 13 ++
    [.own 2 true 7]

/-- What comes out of it. (Concerns co_counting_semaphore.h:19-118.) -/
def strangerTr : Tr Unit (Loc Semaphore.Lin Nat) :=
  [(1, .acq ()), (1, .rel ()), (1, .wr (.data [.took 1])), (1, .acq ()), (1, .rel ()), (1, .wr (.own 7)), (3, .acq ()), (3, .rel ()),
    (3, .wr (.data [.gave 3])), (3, .acq ()), (3, .rel ()), (2, .acq ()), (2, .rel ()), (2, .wr (.data [.took 2])), (2, .acq ()), (2, .rel ()),
    (2, .wr (.own 7))]

/-- **C127**, its condition is needed: the semaphore does not check who puts back. If a coroutine that has no permit calls `release()`, data that
is accessed only with a permit has a race, even with a semaphore that never has more than one. -/
theorem C127_stranger_race : ∃ v tr, runs (vstep (Semaphore.obj 1)) (Obs.init 1) stranger = some (v, tr) ∧ ¬ Returns tr ∧ Kept tr 7 ∧ Race tr (.own 7) := by
  refine ⟨_, strangerTr, rfl, fun h => absurd (h 9 3) (by decide), kept_of (by decide), ?_⟩
  refine ⟨5, 16, 1, 2, _, _, by decide, rfl, rfl, by decide, .inr rfl, .inr rfl, .inl rfl, ?_⟩
  refine not_hb (fun i => i = 5) ?_ rfl (by decide)
  rintro i j a p b q rfl hj h1 h2 h3
  simp only [strangerTr, List.getElem?_cons_succ, List.getElem?_cons_zero, Option.some.injEq, Prod.mk.injEq] at h1
  obtain ⟨rfl, rfl⟩ := h1
  have hlt := (List.getElem?_eq_some_iff.1 h2).1
  simp only [strangerTr, List.length_cons, List.length_nil] at hlt
  have : j = 6 ∨ j = 7 ∨ j = 8 ∨ j = 9 ∨ j = 10 ∨ j = 11 ∨ j = 12 ∨ j = 13 ∨ j = 14 ∨ j = 15 ∨ j = 16 := by omega
  rcases this with rfl | rfl | rfl | rfl | rfl | rfl | rfl | rfl | rfl | rfl | rfl <;> simp [strangerTr] at h2 <;> obtain ⟨rfl, rfl⟩ := h2 <;> simp at h3

end Verif.Monitor
