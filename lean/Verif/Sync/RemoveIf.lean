import Verif.Sync.SharedMutex

/-! # libstdc++'s remove_if, closed form (helper lemmas) -/

namespace Verif.SharedMutex

theorem removeLoop_spec {α : Type} (p : α → Bool) (n : Nat) : ∀ (done mid todo : List α),
    todo.length = n →
    removeLoop p (done ++ mid ++ todo) done.length (done.length + mid.length) n =
      (done ++ todo.filter (fun x => !p x) ++
        (mid ++ todo).drop (todo.filter (fun x => !p x)).length,
       done.length + (todo.filter (fun x => !p x)).length) := by
  induction n with
  | zero =>
    intro done mid todo h
    have : todo = [] := List.eq_nil_of_length_eq_zero h
    subst this
    simp [removeLoop]
  | succ n ih =>
    intro done mid todo h
    cases todo with
    | nil => simp at h
    | cons x xs =>
      simp only [List.length_cons, Nat.add_right_cancel_iff] at h
      have hget : (done ++ mid ++ x :: xs)[done.length + mid.length]? = some x := by
        rw [List.getElem?_append_right (by simp)]
        simp
      rw [removeLoop, hget]
      by_cases hp : p x = true
      · simp only [hp, if_true, Bool.not_true, List.filter_cons, Bool.false_eq_true, if_false]
        have := ih done (mid ++ [x]) xs h
        simp only [List.append_assoc, List.length_append, List.length_cons, List.length_nil,
          List.cons_append, List.nil_append, Nat.zero_add, ← Nat.add_assoc] at this ⊢
        exact this
      · simp only [Bool.not_eq_true] at hp
        simp only [hp, Bool.false_eq_true, if_false, Bool.not_false, List.filter_cons, if_true,
          List.length_cons]
        cases mid with
        | nil =>
          have hset : (done ++ [] ++ x :: xs).set done.length x = (done ++ [x]) ++ [] ++ xs := by
            simp
          rw [hset]
          have := ih (done ++ [x]) [] xs h
          simp only [List.length_append, List.length_cons, List.length_nil, Nat.zero_add,
            Nat.add_zero] at this ⊢
          rw [this]
          simp [Nat.add_assoc, Nat.add_comm 1]
        | cons y ys =>
          have hset : (done ++ y :: ys ++ x :: xs).set done.length x =
              (done ++ [x]) ++ (ys ++ [x]) ++ xs := by
            simp
          rw [hset]
          have := ih (done ++ [x]) (ys ++ [x]) xs h
          simp only [List.length_append, List.length_cons, List.length_nil, Nat.zero_add] at this ⊢
          have e : done.length + 1 + (ys.length + 1) = done.length + (ys.length + 1) + 1 := by omega
          rw [← e, this]
          simp [Nat.add_assoc, Nat.add_comm 1]

/-- `remove_if` keeps the elements that do not satisfy the predicate in front, and leaves the original
values in the slots behind. -/
theorem removeIf_eq {α : Type} (p : α → Bool) (a : List α) :
    removeIf p a = (a.filter (fun x => !p x) ++ a.drop (a.filter (fun x => !p x)).length,
      (a.filter (fun x => !p x)).length) := by
  unfold removeIf
  have hsplit : ∀ a : List α, (∀ x ∈ a, p x = false) ∨
      ∃ d x t, a = d ++ x :: t ∧ (∀ y ∈ d, p y = false) ∧ p x = true := by
    intro a
    induction a with
    | nil => left; simp
    | cons y a ih =>
      by_cases hy : p y = true
      · right; exact ⟨[], y, a, rfl, by simp, hy⟩
      · rcases ih with h | ⟨d, x, t, rfl, h1, h2⟩
        · left; intro x hx; grind
        · right; exact ⟨y :: d, x, t, rfl, by grind, h2⟩
  rcases hsplit a with h | ⟨d, x, t, rfl, h1, h2⟩
  · have h1 : a.findIdx p = a.length := by
      rw [List.findIdx_eq_length]; exact h
    have h2 : a.filter (fun x => !p x) = a := by
      rw [List.filter_eq_self]; intro x hx; simp [h x hx]
    simp [h1, h2]
  · have hi : (d ++ x :: t).findIdx p = d.length := by
      rw [List.findIdx_append]
      have hd : d.findIdx p = d.length := by rw [List.findIdx_eq_length]; exact h1
      simp [hd, List.findIdx_cons, h2]
    have hd : d.filter (fun x => !p x) = d := by
      rw [List.filter_eq_self]; intro y hy; simp [h1 y hy]
    have := removeLoop_spec p t.length d [x] t rfl
    simp only [hi, List.length_append, List.length_cons]
    rw [if_neg (by omega)]
    have e : d.length + (t.length + 1) - d.length - 1 = t.length := by omega
    rw [e]
    simp only [List.append_assoc, List.cons_append, List.nil_append, List.length_cons,
      List.length_nil, Nat.zero_add] at this
    rw [this]
    simp [List.filter_append, hd, h2]

end Verif.SharedMutex
