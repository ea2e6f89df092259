/-!
# Timed try-lock loops

The loops of `try_lock_until` (include/cocpp/sync/co_timed_addition.h:28-44),
`try_lock_shared_until` (include/cocpp/sync/co_shared_timed_mutex.h:28-43) and `try_acquire_until`
(include/cocpp/sync/co_counting_semaphore.h:92-105), and `co_timed_call`
(source/cocpp/utils/co_utils.cpp:7-18). What the attempts and the clock answer comes from the environment:
`ok i` is the result of attempt `i`, `now i` what the clock says the `i`-th time the loop looks at it.
Times are integers (no overflow of `now + duration`). Yielding and the preemption guard are not part of
this model.
-/

namespace Verif.TimedTry

/-- `do { if (try()) return true; yield; } while (now() < deadline); return false;` from iteration `i`
on; `none`: still running after `fuel` iterations. (Concerns co_timed_addition.h:21-44, co_shared_timed_mutex.h:22-43.) -/
def tryUntil (ok : Nat → Bool) (now : Nat → Int) (deadline : Int) : Nat → Nat → Option Bool
  | 0, _ => none
  | fuel + 1, i =>
    if ok i then some true
    else if now i < deadline then tryUntil ok now deadline fuel (i + 1)
    else some false

/-- `try_lock_for(d)` = `try_lock_until(now + d)`: co_timed_addition.h:21-26,
co_shared_timed_mutex.h:22-26, co_counting_semaphore.h:85-90. `t0` is the clock at the call. -/
def tryFor (ok : Nat → Bool) (now : Nat → Int) (t0 d : Int) (fuel : Nat) : Option Bool :=
  tryUntil ok now (t0 + d) fuel 0

/-- co_timed_call, co_utils.cpp:7-18: `while (now() < deadline) if (f()) return true; return false;` -/
def timedCall (ok : Nat → Bool) (now : Nat → Int) (deadline : Int) : Nat → Nat → Option Bool
  | 0, _ => none
  | fuel + 1, i =>
    if now i < deadline then
      if ok i then some true else timedCall ok now deadline fuel (i + 1)
    else some false

theorem tryUntil_spec (ok : Nat → Bool) (now : Nat → Int) (dl : Int) (r : Bool) : ∀ (fuel i : Nat),
    tryUntil ok now dl fuel i = some r ↔
      ∃ n, i ≤ n ∧ n < i + fuel ∧ (∀ j, i ≤ j → j < n → ok j = false ∧ now j < dl) ∧
        ok n = r ∧ (r = false → dl ≤ now n) := by
  intro fuel
  induction fuel with
  | zero => intro i; simp [tryUntil]; intro n h1 h2; omega
  | succ fuel ih =>
    intro i
    simp only [tryUntil]
    by_cases ho : ok i = true
    · simp only [ho, if_true, Option.some.injEq]
      constructor
      · rintro rfl
        exact ⟨i, by omega, by omega, fun j h1 h2 => by omega, ho, by simp⟩
      · rintro ⟨n, h1, h2, h3, h4, h5⟩
        by_cases hn : n = i
        · subst hn; rw [← h4, ho]
        · have := h3 i (by omega) (by omega); simp [ho] at this
    · by_cases hd : now i < dl
      · simp only [ho, hd, if_true, Bool.false_eq_true, if_false, ih]
        constructor
        · rintro ⟨n, h1, h2, h3, h4⟩
          refine ⟨n, by omega, by omega, fun j h5 h6 => ?_, h4⟩
          by_cases hj : j = i
          · subst hj; exact ⟨by simpa using ho, hd⟩
          · exact h3 j (by omega) h6
        · rintro ⟨n, h1, h2, h3, h4, h5⟩
          have hn : n ≠ i := by
            rintro rfl
            cases r with
            | true => exact ho h4
            | false => have := h5 rfl; omega
          exact ⟨n, by omega, by omega, fun j h6 h7 => h3 j (by omega) h7, h4, h5⟩
      · simp only [ho, hd, Bool.false_eq_true, if_false, Option.some.injEq]
        constructor
        · rintro rfl
          exact ⟨i, by omega, by omega, fun j h1 h2 => by omega, by simpa using ho, fun _ => by omega⟩
        · rintro ⟨n, h1, h2, h3, h4, h5⟩
          by_cases hn : n = i
          · subst hn
            cases r with
            | true => exact absurd h4 ho
            | false => rfl
          · have := h3 i (by omega) (by omega); omega

theorem timedCall_spec (ok : Nat → Bool) (now : Nat → Int) (dl : Int) (r : Bool) : ∀ (fuel i : Nat),
    timedCall ok now dl fuel i = some r ↔
      ∃ n, i ≤ n ∧ n < i + fuel ∧ (∀ j, i ≤ j → j < n → ok j = false ∧ now j < dl) ∧
        (r = true → ok n = true ∧ now n < dl) ∧ (r = false → dl ≤ now n) := by
  intro fuel
  induction fuel with
  | zero => intro i; simp [timedCall]; intro n h1 h2; omega
  | succ fuel ih =>
    intro i
    simp only [timedCall]
    by_cases hd : now i < dl
    · by_cases ho : ok i = true
      · simp only [hd, ho, if_true, Option.some.injEq]
        constructor
        · rintro rfl
          exact ⟨i, by omega, by omega, fun j h1 h2 => by omega, fun _ => ⟨ho, hd⟩, by simp⟩
        · rintro ⟨n, h1, h2, h3, h4, h5⟩
          by_cases hn : n = i
          · subst hn
            cases r with
            | true => rfl
            | false => have := h5 rfl; omega
          · have := h3 i (by omega) (by omega); simp [ho] at this
      · simp only [ho, hd, if_true, Bool.false_eq_true, if_false, ih]
        constructor
        · rintro ⟨n, h1, h2, h3, h4⟩
          refine ⟨n, by omega, by omega, fun j h5 h6 => ?_, h4⟩
          by_cases hj : j = i
          · subst hj; exact ⟨by simpa using ho, hd⟩
          · exact h3 j (by omega) h6
        · rintro ⟨n, h1, h2, h3, h4, h5⟩
          have hn : n ≠ i := by
            rintro rfl
            cases r with
            | true => exact ho (h4 rfl).1
            | false => have := h5 rfl; omega
          exact ⟨n, by omega, by omega, fun j h6 h7 => h3 j (by omega) h7, h4, h5⟩
    · simp only [hd, if_false, Option.some.injEq]
      constructor
      · rintro rfl
        exact ⟨i, by omega, by omega, fun j h1 h2 => by omega, by simp, fun _ => by omega⟩
      · rintro ⟨n, h1, h2, h3, h4, h5⟩
        by_cases hn : n = i
        · subst hn
          cases r with
          | true => exact absurd (h4 rfl).2 hd
          | false => rfl
        · have := h3 i (by omega) (by omega); omega

end Verif.TimedTry
