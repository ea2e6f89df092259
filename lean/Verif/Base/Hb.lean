import Mathlib.Logic.Relation
import Mathlib.Data.Nat.Init

/-!
# Happens-before and data races

The part of the C++ memory model (ISO C++20 [intro.races]) that the library relies on: a trace of lock operations and of ordinary
(non-atomic) accesses, happens-before as the transitive closure of program order and of "unlock synchronises with the next lock", and data
races as conflicting accesses that are not ordered. Atomic objects other than locks are not part of it.
-/

namespace Verif.Hb

/-- Operations: a lock is taken (`std::mutex::lock`, or the `test_and_set(acq_rel)` of co_spinlock.cpp:15 that returns false) or released
(`unlock`, or `clear(release)`, co_spinlock.cpp:28); a memory location that is not atomic is read or written. -/
inductive Op (L X : Type)
  | acq (l : L)
  | rel (l : L)
  | rd (x : X)
  | wr (x : X)
  deriving DecidableEq, Repr

section
variable {L X : Type}

/-- A trace: who did what, in the order of the interleaving. (Nothing in /repo: general.) -/
abbrev Tr (L X : Type) := List (Nat × Op L X)

/-- Program order: the same agent, earlier. Not in the library (memory model). -/
def Po (tr : Tr L X) (i j : Nat) : Prop := i < j ∧ ∃ a p q, tr[i]? = some (a, p) ∧ tr[j]? = some (a, q)

/-- Synchronises-with: a release of a lock and the next time the lock is taken. Not in the library (memory model). -/
def Sync (tr : Tr L X) (i j : Nat) : Prop :=
  i < j ∧ ∃ l a b, tr[i]? = some (a, .rel l) ∧ tr[j]? = some (b, .acq l) ∧ ∀ k c, i < k → k < j → tr[k]? ≠ some (c, .acq l)

/-- Happens-before. Not in the library (memory model). -/
def HB (tr : Tr L X) : Nat → Nat → Prop := Relation.TransGen fun i j => Po tr i j ∨ Sync tr i j

/-- Is the operation an access to `x`; a write? (Nothing in /repo: general.) -/
def Op.touches (x : X) (p : Op L X) : Prop := p = .rd x ∨ p = .wr x

/-- A data race on `x`: two conflicting accesses of different agents, not ordered by happens-before. (Nothing in /repo: general.) -/
def Race (tr : Tr L X) (x : X) : Prop :=
  ∃ i j a b p q, i < j ∧ tr[i]? = some (a, p) ∧ tr[j]? = some (b, q) ∧ a ≠ b ∧ p.touches x ∧ q.touches x ∧ (p = .wr x ∨ q = .wr x) ∧
    ¬ HB tr i j

/-- Who has the lock `l` after the trace. (Nothing in /repo: general.) -/
def holder [DecidableEq L] (l : L) (tr : Tr L X) : Option Nat :=
  tr.foldl (fun h e => match e.2 with | .acq l' => if l' = l then some e.1 else h | .rel l' => if l' = l then none else h | _ => h) none

/-- Locks exclude: they are taken when free and released by their holder (what C01 proves of co_spinlock, and what the standard library
promises of its mutexes). (Nothing in /repo: general.) -/
def WF [DecidableEq L] (tr : Tr L X) : Prop :=
  ∀ k a l, (tr[k]? = some (a, .acq l) → holder l (tr.take k) = none) ∧ (tr[k]? = some (a, .rel l) → holder l (tr.take k) = some a)

/-- Every access to `x` is made by the holder of `l`. (Nothing in /repo: general.) -/
def Guarded [DecidableEq L] (tr : Tr L X) (x : X) (l : L) : Prop :=
  ∀ k a p, tr[k]? = some (a, p) → p.touches x → holder l (tr.take k) = some a

theorem holder_succ [DecidableEq L] (l : L) (tr : Tr L X) (k : Nat) (e : Nat × Op L X) (h : tr[k]? = some e) :
    holder l (tr.take (k + 1)) =
      match e.2 with
      | .acq l' => if l' = l then some e.1 else holder l (tr.take k)
      | .rel l' => if l' = l then none else holder l (tr.take k)
      | _ => holder l (tr.take k) := by
  rw [List.take_add_one, h]
  simp only [holder, Option.toList_some, List.foldl_append, List.foldl_cons, List.foldl_nil]

theorem HB.po {tr : Tr L X} {i j a : Nat} {p q : Op L X} (h : i < j) (hi : tr[i]? = some (a, p)) (hj : tr[j]? = some (a, q)) : HB tr i j :=
  .single (.inl ⟨h, a, p, q, hi, hj⟩)

theorem hb_mono {tr : Tr L X} (e : Tr L X) {i j : Nat} (h : HB tr i j) : HB (tr ++ e) i j := by
  have hle : ∀ (k : Nat) (f : Nat × Op L X), tr[k]? = some f → (tr ++ e)[k]? = some f := fun k f hk => by
    rw [List.getElem?_append_left (List.getElem?_eq_some_iff.1 hk).1]; exact hk
  refine Relation.TransGen.mono (fun i j hij => ?_) i j h
  rcases hij with ⟨h, a, p, q, h1, h2⟩ | ⟨h, l, a, b, h1, h2, h3⟩
  · exact .inl ⟨h, a, p, q, hle _ _ h1, hle _ _ h2⟩
  · refine .inr ⟨h, l, a, b, hle _ _ h1, hle _ _ h2, fun k c hk1 hk2 hk => h3 k c hk1 hk2 ?_⟩
    rwa [List.getElem?_append_left (by have := (List.getElem?_eq_some_iff.1 h2).1; omega)] at hk

/-- After `a` had `l` at `n`: it still has it, or it released it and whoever had it since then is ordered after that. -/
theorem chain [DecidableEq L] {tr : Tr L X} (hw : WF tr) (l : L) (n a : Nat) (hn : holder l (tr.take n) = some a) (m : Nat) (hm : n ≤ m)
    (hlen : m ≤ tr.length) :
    holder l (tr.take m) = some a ∨
      ∃ r, n ≤ r ∧ tr[r]? = some (a, .rel l) ∧
        ((∃ c q, holder l (tr.take m) = some c ∧ r < q ∧ q < m ∧ tr[q]? = some (c, .acq l) ∧ HB tr r q) ∨
          (∃ c q, holder l (tr.take m) = none ∧ r ≤ q ∧ q < m ∧ tr[q]? = some (c, .rel l) ∧ (r = q ∨ HB tr r q) ∧
            ∀ k d, q < k → k < m → tr[k]? ≠ some (d, .acq l))) := by
  induction m, hm using Nat.le_induction with
  | base => exact .inl hn
  | succ m hm ih =>
    have hlt : m < tr.length := by omega
    obtain ⟨⟨c, op⟩, hc⟩ : ∃ e, tr[m]? = some e := ⟨tr[m], List.getElem?_eq_getElem hlt⟩
    have hs := holder_succ l tr m _ hc
    have ih := ih (by omega)
    by_cases hacq : op = .acq l
    · subst hacq
      have hfree := ((hw m c l).1 hc)
      simp only [if_true] at hs
      rcases ih with h | ⟨r, hr1, hr2, h | h⟩
      · rw [hfree] at h; cases h
      · obtain ⟨_, _, h, _⟩ := h; rw [hfree] at h; cases h
      · obtain ⟨d, q, _, h2, h3, h4, h5, h6⟩ := h
        refine .inr ⟨r, hr1, hr2, .inl ⟨c, m, hs, by omega, by omega, hc, ?_⟩⟩
        have hsy : HB tr q m := .single (.inr ⟨h3, l, d, c, h4, hc, fun k e h1 h2 => h6 k e h1 h2⟩)
        rcases h5 with rfl | h5
        · exact hsy
        · exact h5.trans hsy
    · by_cases hrel : op = .rel l
      · subst hrel
        have hh := ((hw m c l).2 hc)
        simp only [if_true] at hs
        rcases ih with h | ⟨r, hr1, hr2, h | h⟩
        · rw [hh] at h; cases h
          exact .inr ⟨m, hm, hc, .inr ⟨_, m, hs, by omega, by omega, hc, .inl rfl, fun k d h1 h2 => by omega⟩⟩
        · obtain ⟨d, q, h1, h2, h3, h4, h5⟩ := h
          rw [hh] at h1; cases h1
          exact .inr ⟨r, hr1, hr2, .inr ⟨_, m, hs, by omega, by omega, hc, .inr (h5.trans (HB.po h3 h4 hc)), fun k d h1 h2 => by omega⟩⟩
        · obtain ⟨_, _, h, _⟩ := h; rw [hh] at h; cases h
      · have hs' : holder l (tr.take (m + 1)) = holder l (tr.take m) := by
          rw [hs]
          cases op <;> simp only [ne_eq, Op.acq.injEq, Op.rel.injEq] at * <;> grind
        rw [hs']
        rcases ih with h | ⟨r, hr1, hr2, h | h⟩
        · exact .inl h
        · obtain ⟨d, q, h1, h2, h3, h4, h5⟩ := h
          exact .inr ⟨r, hr1, hr2, .inl ⟨d, q, h1, h2, by omega, h4, h5⟩⟩
        · obtain ⟨d, q, h1, h2, h3, h4, h5, h6⟩ := h
          refine .inr ⟨r, hr1, hr2, .inr ⟨d, q, h1, h2, by omega, h4, h5, fun k e hk1 hk2 => ?_⟩⟩
          by_cases hkm : k = m
          · subst hkm; rw [hc]; intro e'; simp only [Option.some.injEq, Prod.mk.injEq] at e'; exact hacq e'.2
          · exact h6 k e hk1 (by omega)

/-- Accesses of different agents under the same lock are ordered by happens-before. -/
theorem ordered [DecidableEq L] {tr : Tr L X} (hw : WF tr) (l : L) {i j a b : Nat} {p q : Op L X} (hij : i < j) (hi : tr[i]? = some (a, p))
    (hj : tr[j]? = some (b, q)) (hab : a ≠ b) (hp : p ≠ .rel l) (ha : holder l (tr.take i) = some a)
    (hb : holder l (tr.take j) = some b) : HB tr i j := by
  have hlen : j ≤ tr.length := by
    have := (List.getElem?_eq_some_iff.1 hj).1
    omega
  rcases chain hw l i a ha j (by omega) hlen with h | ⟨r, hr1, hr2, h | h⟩
  · rw [hb] at h; cases h; exact absurd rfl hab
  · obtain ⟨c, k, h1, h2, h3, h4, h5⟩ := h
    rw [hb] at h1; cases h1
    have hri : i < r := by
      rcases Nat.lt_or_eq_of_le hr1 with h | h
      · exact h
      · subst h; rw [hi] at hr2; simp only [Option.some.injEq, Prod.mk.injEq] at hr2; exact absurd hr2.2 hp
    exact (HB.po hri hi hr2).trans (h5.trans (HB.po h3 h4 hj))
  · obtain ⟨_, _, h, _⟩ := h; rw [hb] at h; cases h

/-- A location that is accessed only under one lock has no data race. -/
theorem no_race [DecidableEq L] {tr : Tr L X} (hw : WF tr) {x : X} {l : L} (hg : Guarded tr x l) : ¬ Race tr x := by
  rintro ⟨i, j, a, b, p, q, hij, hi, hj, hab, hp, hq, _, hn⟩
  exact hn (ordered hw l hij hi hj hab (by rcases hp with rfl | rfl <;> simp) (hg i a p hi hp) (hg j b q hj hq))

/-- To show that two operations are not ordered: a set of positions that contains the first and not the second and is closed under program
order and under "unlock before lock". -/
theorem not_hb {tr : Tr L X} (P : Nat → Prop) (hP : ∀ i j a p b q, P i → i < j → tr[i]? = some (a, p) → tr[j]? = some (b, q) →
    (a = b ∨ ∃ l, p = .rel l ∧ q = .acq l) → P j) {i j : Nat} (hi : P i) (hj : ¬ P j) : ¬ HB tr i j := by
  intro h
  refine hj ?_
  induction h with
  | single h =>
    rcases h with ⟨h, a, p, q, h1, h2⟩ | ⟨h, l, a, b, h1, h2, _⟩
    · exact hP _ _ _ _ _ _ hi h h1 h2 (.inl rfl)
    · exact hP _ _ _ _ _ _ hi h h1 h2 (.inr ⟨l, rfl, rfl⟩)
  | tail _ h ih =>
    have ih := ih (fun hk => by
      rcases h with ⟨h, a, p, q, h1, h2⟩ | ⟨h, l, a, b, h1, h2, _⟩
      · exact hj (hP _ _ _ _ _ _ hk h h1 h2 (.inl rfl))
      · exact hj (hP _ _ _ _ _ _ hk h h1 h2 (.inr ⟨l, rfl, rfl⟩)))
    rcases h with ⟨h, a, p, q, h1, h2⟩ | ⟨h, l, a, b, h1, h2, _⟩
    · exact hP _ _ _ _ _ _ ih h h1 h2 (.inl rfl)
    · exact hP _ _ _ _ _ _ ih h h1 h2 (.inr ⟨l, rfl, rfl⟩)

end
end Verif.Hb
