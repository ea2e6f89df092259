import Verif.Monitor.AbsTerm

/-! # Lemmas for proofs about monitor objects (helpers) -/

namespace Verif.Monitor
section
variable {σ C K V E : Type} [DecidableEq C]

/-- The abstract state after coroutine `t` has executed the section at `k`. (Concerns co_condition_variable.h:69-88.) -/
def after (o : Obj σ C K V E) (a : Abs σ C K V) (t : Tid) (k : K) : Abs σ C K V :=
  ⟨(o.body t k a.sh).sh, enqueue ((o.body t k a.sh).sigs.foldl notify a.wq) t (o.body t k a.sh).fin,
    upd (fun u => settle (enqueue ((o.body t k a.sh).sigs.foldl notify a.wq) t (o.body t k a.sh).fin) u (a.th u)) t
      (o.body t k a.sh).fin.th⟩

variable {o : Obj σ C K V E} {a a' : Abs σ C K V} {t u : Tid} {k j : K} {c : C} {es : List (Ev K V E)}

theorem call_inv (hs : a.step o (.call t k) = some (a', es)) :
    a.th t = .idle ∧ a' = { a with th := upd a.th t (.ready k) } ∧ es = [.call t k] := by
  simp only [Abs.step] at hs
  split at hs <;> cases hs
  exact ⟨by assumption, rfl, rfl⟩

theorem leave_inv (hs : a.step o (.leave t) = some (a', es)) :
    ∃ v, a.th t = .leaving v ∧ a' = { a with th := upd a.th t .idle } ∧ es = [.ret t v] := by
  simp only [Abs.step] at hs
  split at hs <;> cases hs
  exact ⟨_, by assumption, rfl, rfl⟩

theorem run_inv (hs : a.step o (.run t) = some (a', es)) :
    ∃ k, a.th t = .ready k ∧ a' = after o a t k ∧ es = (o.body t k a.sh).ev.map .lin := by
  simp only [Abs.step] at hs
  split at hs <;> cases hs
  exact ⟨_, by assumption, rfl, rfl⟩

theorem after_self : (after o a t k).th t = (o.body t k a.sh).fin.th := by simp [after]

theorem after_th (hu : u ≠ t) : (after o a t k).th u = settle (after o a t k).wq u (a.th u) := by
  simp [after, hu]

theorem after_ready (hu : u ≠ t) (h : a.th u = .ready j) : (after o a t k).th u = .ready j := by
  rw [after_th hu, h]; rfl

theorem after_wake (hw : a.Wf) (ht : a.th t = .ready k) (hu : u ∈ a.wq c) (hn : u ∉ (after o a t k).wq c) :
    ∃ j, a.th u = .parked c j ∧ (after o a t k).th u = .ready j ∧ u ≠ t := by
  obtain ⟨j, hj⟩ := (hw.mem c u).1 hu
  have hut : u ≠ t := by rintro rfl; rw [ht] at hj; cases hj
  exact ⟨j, hj, by rw [after_th hut, hj]; simp [settle, hn], hut⟩

theorem after_parked (hu : u ≠ t) (h : (after o a t k).th u = .parked c j) :
    a.th u = .parked c j ∧ u ∈ (after o a t k).wq c := by
  rw [after_th hu] at h
  cases hx : a.th u with
  | parked d i =>
    simp only [hx, settle] at h
    split at h
    · next hm => cases h; exact ⟨rfl, hm⟩
    · cases h
  | _ => simp [hx, settle] at h

/-- Removing one coroutine from a list of witnesses. -/
theorem drop_one {P : Tid → Prop} {L : List Tid} (hn : L.Nodup) (hP : ∀ u ∈ L, P u) (t : Tid) :
    ∃ L' : List Tid, L'.Nodup ∧ (∀ u ∈ L', P u ∧ u ≠ t) ∧ L.length ≤ L'.length + 1 := by
  refine ⟨L.erase t, hn.erase t, fun u hu => ?_, ?_⟩
  · have := (List.Nodup.mem_erase_iff hn).1 hu
    exact ⟨hP u this.2, this.1⟩
  · rw [List.length_erase]; split <;> omega

/-- At least `n` coroutines are about to execute a section at a point satisfying `p`. (Concerns co_condition_variable.h:69-88.) -/
def Promise (a : Abs σ C K V) (p : K → Prop) (n : Int) : Prop :=
  ∃ L : List Tid, L.Nodup ∧ (∀ u ∈ L, ∃ j, p j ∧ a.th u = .ready j) ∧ n ≤ L.length

variable {p : K → Prop} {n : Int}

theorem Promise.zero (h : n ≤ 0) : Promise a p n := ⟨[], by simp, by simp, by simpa using h⟩

theorem Promise.mono {m : Int} (h : Promise a p n) (hm : m ≤ n) : Promise a p m := by
  obtain ⟨L, h1, h2, h3⟩ := h; exact ⟨L, h1, h2, by omega⟩

theorem Promise.stuck (h : Promise a p n) (hr : ∀ u j, a.th u ≠ .ready j) : n ≤ 0 := by
  obtain ⟨L, _, h2, h3⟩ := h
  cases L with
  | nil => simpa using h3
  | cons u L => obtain ⟨j, _, hj⟩ := h2 u (by simp); exact absurd hj (hr u j)

/-- Changing a coroutine that is not ready. -/
theorem Promise.frame {x : Th C K V} (h : Promise a p n) (ht : ∀ j, a.th t ≠ .ready j) :
    Promise { a with th := upd a.th t x } p n := by
  obtain ⟨L, h1, h2, h3⟩ := h
  refine ⟨L, h1, fun u hu => ?_, h3⟩
  obtain ⟨j, hp, hj⟩ := h2 u hu
  have hut : u ≠ t := by rintro rfl; exact ht j hj
  exact ⟨j, hp, by simp [hut, hj]⟩

theorem Promise.keep (h : Promise a p n) (ht : a.th t = .ready k) (hk : ¬ p k) : Promise (after o a t k) p n := by
  obtain ⟨L, h1, h2, h3⟩ := h
  refine ⟨L, h1, fun u hu => ?_, h3⟩
  obtain ⟨j, hp, hj⟩ := h2 u hu
  have hut : u ≠ t := by rintro rfl; rw [ht] at hj; cases hj; exact hk hp
  exact ⟨j, hp, after_ready hut hj⟩

theorem Promise.drop (h : Promise a p n) : Promise (after o a t k) p (n - 1) := by
  obtain ⟨L, h1, h2, h3⟩ := h
  obtain ⟨L', i1, i2, i3⟩ := drop_one h1 h2 t
  refine ⟨L', i1, fun u hu => ?_, by omega⟩
  obtain ⟨⟨j, hp, hj⟩, hut⟩ := i2 u hu
  exact ⟨j, hp, after_ready hut hj⟩

/-- The section itself continues at a point satisfying `p`. -/
theorem Promise.self (h : Promise a p n) (hn : ∀ j, p j → a.th t ≠ .ready j) (hj : (o.body t k a.sh).fin = .next j)
    (hp : p j) : Promise (after o a t k) p (n + 1) := by
  obtain ⟨L, h1, h2, h3⟩ := h
  have htL : t ∉ L := by intro hm; obtain ⟨i, hi, hi2⟩ := h2 t hm; exact hn i hi hi2
  refine ⟨t :: L, by simp [htL, h1], fun u hu => ?_, by simp; omega⟩
  rcases List.mem_cons.1 hu with rfl | hL
  · exact ⟨j, hp, by rw [after_self, hj]; rfl⟩
  · obtain ⟨j, hp, hj⟩ := h2 u hL
    have hut : u ≠ t := by rintro rfl; exact htL hL
    exact ⟨j, hp, after_ready hut hj⟩

/-- Somebody is taken out of a queue whose waiters continue at points satisfying `p`. -/
theorem Promise.wake {c : C} (h : Promise a p n) (hw : a.Wf) (ht : a.th t = .ready k) (hk : ¬ p k)
    (hu : u ∈ a.wq c) (hnu : u ∉ (after o a t k).wq c) (hp : ∀ u j, a.th u = .parked c j → p j) :
    Promise (after o a t k) p (n + 1) := by
  obtain ⟨L, h1, h2, h3⟩ := h
  obtain ⟨j, hj, hj2, hut⟩ := after_wake hw ht hu hnu
  have huL : u ∉ L := by intro hm; obtain ⟨i, _, hi2⟩ := h2 u hm; rw [hj] at hi2; cases hi2
  refine ⟨u :: L, by simp [huL, h1], fun v hv => ?_, by simp; omega⟩
  rcases List.mem_cons.1 hv with rfl | hv
  · exact ⟨j, hp _ j hj, hj2⟩
  · obtain ⟨i, hi, hi2⟩ := h2 v hv
    have hvt : v ≠ t := by rintro rfl; rw [ht] at hi2; cases hi2; exact hk hi
    exact ⟨i, hi, after_ready hvt hi2⟩

/-- `notify_one(c)` in a section that does not wait takes the head of the queue out. -/
theorem wq_one {c : C} (hs : (o.body t k a.sh).sigs = [.one c]) (hf : ∀ d j, (o.body t k a.sh).fin ≠ .park d j) :
    (after o a t k).wq = setC a.wq c (a.wq c).tail := by
  simp only [after, hs, List.foldl_cons, List.foldl_nil, notify]
  cases h : (o.body t k a.sh).fin with
  | park d j => exact absurd h (hf d j)
  | _ => rfl

theorem wq_park {c : C} (hs : (o.body t k a.sh).sigs = []) (hf : (o.body t k a.sh).fin = .park c j) :
    (after o a t k).wq = setC a.wq c (a.wq c ++ [t]) := by simp [after, hs, hf, enqueue]

theorem wq_nil (hs : (o.body t k a.sh).sigs = []) (hf : ∀ d j, (o.body t k a.sh).fin ≠ .park d j) :
    (after o a t k).wq = a.wq := by
  simp only [after, hs, List.foldl_nil]
  cases h : (o.body t k a.sh).fin with
  | park d j => exact absurd h (hf d j)
  | _ => rfl

theorem head_not_tail (hw : a.Wf) {c : C} {v : Tid} {l : List Tid} (h : a.wq c = v :: l) : v ∉ (a.wq c).tail := by
  have := hw.nodup c
  rw [h, List.nodup_cons] at this
  simpa [h] using this.1

end
end Verif.Monitor
