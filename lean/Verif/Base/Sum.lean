import Verif.Base.Lts

/-! # Sums of per-coroutine measures over a finite set of coroutines -/

namespace Verif

/-- Sum of a measure over a list of coroutines. (Nothing in /repo: general.) -/
def sumOver (L : List Tid) (f : Tid → Nat) : Nat := (L.map f).sum

theorem sumOver_congr {L : List Tid} {f g : Tid → Nat} (h : ∀ u ∈ L, f u = g u) :
    sumOver L f = sumOver L g := by
  unfold sumOver
  rw [List.map_congr_left h]

theorem sumOver_le {L : List Tid} {f g : Tid → Nat} (h : ∀ u ∈ L, f u ≤ g u) :
    sumOver L f ≤ sumOver L g := by
  unfold sumOver
  induction L with
  | nil => simp
  | cons a L ih =>
    have h1 := h a (by simp)
    have h2 := ih (fun u hu => h u (by simp [hu]))
    simp only [List.map_cons, List.sum_cons]
    omega

/-- If only coroutine `t` changes its measure, the sum changes by as much. -/
theorem sumOver_single {L : List Tid} {f g : Tid → Nat} {t : Tid} (hn : L.Nodup) (ht : t ∈ L)
    (h : ∀ u, u ≠ t → f u = g u) : sumOver L f + g t = sumOver L g + f t := by
  unfold sumOver
  induction L with
  | nil => simp at ht
  | cons a L ih =>
    simp only [List.map_cons, List.sum_cons]
    rw [List.nodup_cons] at hn
    by_cases ha : t = a
    · subst ha
      have : L.map f = L.map g := List.map_congr_left (fun u hu => h u (by grind))
      rw [this]; omega
    · have := ih hn.2 (by grind)
      have := h a (by grind)
      omega

theorem sumOver_zero {L : List Tid} {f : Tid → Nat} (h : ∀ u ∈ L, f u = 0) : sumOver L f = 0 := by
  unfold sumOver
  induction L with
  | nil => rfl
  | cons a L ih =>
    simp only [List.map_cons, List.sum_cons]
    have := h a (by simp)
    have := ih (fun u hu => h u (by simp [hu]))
    omega

theorem sumOver_const (L : List Tid) (n : Nat) : sumOver L (fun _ => n) = n * L.length := by
  unfold sumOver
  induction L with
  | nil => simp
  | cons a L ih =>
    simp only [List.map_cons, List.sum_cons, List.length_cons, ih, Nat.mul_add]
    omega

end Verif
