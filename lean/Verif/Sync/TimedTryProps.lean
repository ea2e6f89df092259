import Verif.Sync.TimedTry

/-! # Timed try-lock: properties (C15) -/

namespace Verif.TimedTry

/-- C15. `try_lock_until` (also the shared and the semaphore version) returns true exactly if some
attempt succeeded, all attempts before it failed, and the deadline had not been seen before it … -/
theorem C15_true_iff_acquired (ok : Nat → Bool) (now : Nat → Int) (dl : Int) :
    (∃ fuel, tryUntil ok now dl fuel 0 = some true) ↔
      ∃ n, ok n = true ∧ ∀ j, j < n → ok j = false ∧ now j < dl := by
  constructor
  · rintro ⟨fuel, h⟩
    obtain ⟨n, -, -, h3, h4, -⟩ := (tryUntil_spec ok now dl true fuel 0).1 h
    exact ⟨n, h4, fun j hj => h3 j (by omega) hj⟩
  · rintro ⟨n, h1, h2⟩
    exact ⟨n + 1, (tryUntil_spec ok now dl true (n + 1) 0).2
      ⟨n, by omega, by omega, fun j _ hj => h2 j hj, h1, by simp⟩⟩

/-- … and false exactly if the deadline was seen to have passed after an attempt, and that attempt and
all before it failed. So it always makes an attempt, also with a deadline in the past. -/
theorem C15_false_iff_deadline (ok : Nat → Bool) (now : Nat → Int) (dl : Int) :
    (∃ fuel, tryUntil ok now dl fuel 0 = some false) ↔
      ∃ n, dl ≤ now n ∧ ok n = false ∧ ∀ j, j < n → ok j = false ∧ now j < dl := by
  constructor
  · rintro ⟨fuel, h⟩
    obtain ⟨n, -, -, h3, h4, h5⟩ := (tryUntil_spec ok now dl false fuel 0).1 h
    exact ⟨n, h5 rfl, h4, fun j hj => h3 j (by omega) hj⟩
  · rintro ⟨n, h0, h1, h2⟩
    exact ⟨n + 1, (tryUntil_spec ok now dl false (n + 1) 0).2
      ⟨n, by omega, by omega, fun j _ hj => h2 j hj, h1, fun _ => h0⟩⟩

/-- C15, it ends: as soon as an attempt succeeds or the clock has reached the deadline, the call returns,
within that many iterations. -/
theorem C15_terminates (ok : Nat → Bool) (now : Nat → Int) (dl : Int) (n : Nat)
    (h : ok n = true ∨ dl ≤ now n) : ∃ r, tryUntil ok now dl (n + 1) 0 = some r := by
  have key : ∀ fuel i, i ≤ n → n < i + fuel → ∃ r, tryUntil ok now dl fuel i = some r := by
    intro fuel
    induction fuel with
    | zero => intro i h1 h2; omega
    | succ fuel ih =>
      intro i h1 h2
      simp only [tryUntil]
      split
      · exact ⟨_, rfl⟩
      · rename_i ho
        split
        · rename_i hd
          have : i ≠ n := by
            rintro rfl
            rcases h with h | h
            · exact ho h
            · omega
          exact ih (i + 1) (by omega) (by omega)
        · exact ⟨_, rfl⟩
  exact key (n + 1) 0 (by omega) (by omega)

/-- C15, the relative version: false only if the clock was seen at least `d` after the start. -/
theorem C15_for_waits_long_enough (ok : Nat → Bool) (now : Nat → Int) (t0 d : Int) (fuel : Nat)
    (h : tryFor ok now t0 d fuel = some false) :
    ∃ n, d ≤ now n - t0 ∧ ∀ j, j ≤ n → ok j = false := by
  obtain ⟨n, h1, h2, h3⟩ := (C15_false_iff_deadline ok now (t0 + d)).1 ⟨fuel, h⟩
  refine ⟨n, by omega, fun j hj => ?_⟩
  by_cases hjn : j = n
  · rw [hjn]; exact h2
  · exact (h3 j (by omega)).1

/-- C15, the spin phase of the mutexes (`co_timed_call`): true only if the function returned true, at a
moment the clock was still before the deadline; false only if every call made returned false. It may
make no call at all. -/
theorem C15_timed_call (ok : Nat → Bool) (now : Nat → Int) (dl : Int) (fuel : Nat) :
    (timedCall ok now dl fuel 0 = some true → ∃ n, ok n = true ∧ now n < dl) ∧
    (timedCall ok now dl fuel 0 = some false →
      ∃ n, dl ≤ now n ∧ ∀ j, j < n → ok j = false) ∧
    (dl ≤ now 0 → timedCall ok now dl (fuel + 1) 0 = some false) := by
  refine ⟨fun h => ?_, fun h => ?_, fun h => ?_⟩
  · obtain ⟨n, -, -, -, h4, -⟩ := (timedCall_spec ok now dl true fuel 0).1 h
    exact ⟨n, h4 rfl⟩
  · obtain ⟨n, -, -, h3, -, h5⟩ := (timedCall_spec ok now dl false fuel 0).1 h
    exact ⟨n, h5 rfl, fun j hj => (h3 j (by omega) hj).1⟩
  · simp only [timedCall]; rw [if_neg (by omega)]

/-- Third attempt succeeds before the deadline 25; with deadline 15 the second look at the clock ends
it; with a deadline in the past there is still one attempt. -/
example : tryUntil (fun i => decide (i = 2)) (fun i => 10 * i) 25 5 0 = some true ∧
    tryUntil (fun i => decide (i = 2)) (fun i => 10 * i) 5 5 0 = some false ∧
    tryUntil (fun i => decide (i = 0)) (fun i => 10 * i) (-1) 5 0 = some true ∧
    tryFor (fun _ => false) (fun i => 100 + 10 * i) 100 15 5 = some false ∧
    timedCall (fun i => decide (i = 1)) (fun i => 10 * i) 15 5 0 = some true ∧
    timedCall (fun _ => true) (fun i => 10 * i) 0 5 0 = some false := by decide

end Verif.TimedTry
