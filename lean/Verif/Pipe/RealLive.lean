import Mathlib.Data.List.Dedup
import Verif.Pipe.RealProps

/-!
# Pipelines over the real channels: they come to an end
-/

namespace Verif.Real
open Monitor

variable {α : Type} {P : Pipe.Pipe α} {it : Bool} {tid : Who → Tid} {inj : ∀ a b, tid a = tid b → a = b}

/-- **C97, progress**: whatever source the pipeline has and whatever stages (`fork` included), if a state is reached in which no coroutine
can make a step, the consumer's loop is over, and it has a result for all items `X` the source was asked for. (`.fixed 0` does
not exist: `max_chan_size = 0` is `.sync`.) -/
theorem C97_progress (hok : ∀ g ∈ P.stages, g.Ok) (hk : P.kind ≠ .fixed 0) {as : List (Who × Bool)} {c : Full α}
    {es : List (Nat × Ev (Chan.Op α) (Chan.Res α) (Chan.Lin α))} (h : Exec P it tid inj as c es)
    (hst : ∀ a, c.step (fullM (chans P)) (prog P it tid inj) a = none) {X : List α} (hX : ∀ j < X.length, P.src j = X[j]?)
    (hn : ∀ k p, c.ps .src = .src k p → k ≤ X.length) :
    c.inside .consumer = none ∧ ∃ Y, Pipe.Dens P.stages X Y ∧ c.ps .consumer = .consumer Y true := by
  obtain ⟨⟨bs, s, tr, hr, hR⟩, hg⟩ := reach h
  have he := Pipe.stuck_eof (Pipe.inv_runs hok hr) hk (stuck h hst hR hg)
  obtain ⟨h1, h2⟩ := consumer_stuck h hst hR hg he
  obtain ⟨out, eof, Y, k1, k2, _, k4⟩ := C97_any_source hok h hX hn
  rw [h2] at k1
  cases k1
  rw [k4 rfl] at h2
  exact ⟨h1, Y, k2, h2⟩

/-- The source has asked for no more than there is. -/
theorem asked {l : List α} {kd : Pipe.Kind} {gs : List (Pipe.Stage α)} {as : List (Who × Bool)} {c : Full α}
    {es : List (Nat × Ev (Chan.Op α) (Chan.Res α) (Chan.Lin α))} (h : Exec (Pipe.Pipe.ofList l kd gs) it tid inj as c es) :
    ∀ k p, c.ps .src = .src k p → k ≤ l.length := by
  intro k p hp
  obtain ⟨⟨bs, s, tr, hr, hR⟩, _⟩ := reach h
  obtain ⟨p', hp'⟩ := src_view hR
  have hp' : c.ps .src = .src s.k p' := hp'
  rw [hp] at hp'
  cases hp'
  exact Pipe.k_le hr

/-- **C97, lists, in the end**: for every list, stages without `fork` and every schedule, when nobody can make a step any more, the
consumer's loop is over and it has collected exactly the value of the list functions. -/
theorem C97_delivered_in_the_end {l : List α} {kd : Pipe.Kind} {gs : List (Pipe.Stage α)} (hk : kd ≠ .fixed 0)
    (hf : ∀ g ∈ gs, g.isFork = false) (hg : ∀ n f, Pipe.Stage.group n f ∈ gs → 0 < n) {as : List (Who × Bool)} {c : Full α}
    {es : List (Nat × Ev (Chan.Op α) (Chan.Res α) (Chan.Lin α))} (h : Exec (Pipe.Pipe.ofList l kd gs) it tid inj as c es)
    (hst : ∀ a, c.step (fullM (chans (Pipe.Pipe.ofList l kd gs))) (prog (Pipe.Pipe.ofList l kd gs) it tid inj) a = none) :
    c.ps .consumer = .consumer (gs.foldl (fun l g => g.fn l) l) true := by
  have hok : ∀ g ∈ (Pipe.Pipe.ofList l kd gs).stages, g.Ok := by
    intro g hm
    cases g with
    | group n f => exact hg n f hm
    | fork n f => exact absurd (hf _ hm) (by simp [Pipe.Stage.isFork])
    | _ => trivial
  obtain ⟨_, Y, h1, h2⟩ := C97_progress hok hk h hst (X := l) (fun j _ => rfl) (asked h)
  obtain ⟨out, eof, k1, _, k3⟩ := C97_delivers hf hg h
  rw [h2] at k1
  cases k1
  rw [h2, k3 rfl]

/-- **C97, `fork`, in the end**: the results of all items, in some order. -/
theorem C97_fork_delivered_in_the_end {l : List α} {kd : Pipe.Kind} {n : Nat} {f : α → α} (hk : kd ≠ .fixed 0) (hn : 0 < n)
    {as : List (Who × Bool)} {c : Full α}
    {es : List (Nat × Ev (Chan.Op α) (Chan.Res α) (Chan.Lin α))} (h : Exec (Pipe.Pipe.ofList l kd [.fork n f]) it tid inj as c es)
    (hst : ∀ a, c.step (fullM (chans (Pipe.Pipe.ofList l kd [.fork n f]))) (prog (Pipe.Pipe.ofList l kd [.fork n f]) it tid inj) a = none) :
    ∃ Y, c.ps .consumer = .consumer Y true ∧ Y.Perm (l.map f) := by
  obtain ⟨_, Y, h1, h2⟩ := C97_progress (by simp [Pipe.Pipe.ofList, Pipe.Stage.Ok, hn]) hk h hst (X := l) (fun j _ => rfl) (asked h)
  obtain ⟨Z, k1, k2⟩ := h1
  simp only [Pipe.Dens] at k2
  subst k2
  exact ⟨_, h2, k1⟩

/-! ## Termination -/

/-- Proof device: the coroutines of the pipeline. (Concerns co_pipeline.h:65-352.) -/
def crew (P : Pipe.Pipe α) : List Who :=
  (.src :: .consumer :: (List.range P.stages.length).flatMap fun i => .stage i :: crewOf i P.stages[i]?).dedup
where
  /-- Proof device: the workers of a stage. -/
  crewOf (i : Nat) : Option (Pipe.Stage α) → List Who
    | some (.fork n _) => (List.range n).map (.worker i)
    | _ => []

theorem own_crew {w : Who} {l : Loc α} (h : own P it w l ≠ .stop) : w ∈ crew P := by
  simp only [crew, List.mem_dedup, List.mem_cons, List.mem_flatMap, List.mem_range]
  cases w with
  | src => simp
  | consumer => simp
  | stage i =>
    right; right
    refine ⟨i, ?_, .inl rfl⟩
    by_cases hi : i < P.stages.length
    · exact hi
    · exfalso; apply h
      cases l <;> simp only [own]
      rw [List.getElem?_eq_none (by omega)]
  | worker i u =>
    right; right
    cases hg : P.stages[i]? with
    | none => exfalso; apply h; cases l <;> simp [own, hg]
    | some g =>
      refine ⟨i, (List.getElem?_eq_some_iff.1 hg).1, .inr ?_⟩
      rw [hg]
      cases g with
      | fork n f =>
        by_cases hu : u < n
        · simp [crew.crewOf, hu]
        · exfalso; apply h; cases l <;> simp [own, hg, hu]
      | _ => exfalso; apply h; cases l <;> simp [own, hg]

theorem next_crew {w : Who} {ps : Who → Loc α} (h : (prog P it tid inj).next w ps ≠ .stop) : w ∈ crew P := by
  cases w with
  | stage i =>
    simp only [prog] at h
    split at h
    · rename_i hj
      have hi : i < P.stages.length := by
        by_cases hi : i < P.stages.length
        · exact hi
        · simp [joined, List.getElem?_eq_none (Nat.le_of_not_lt hi)] at hj
      simp only [crew, List.mem_dedup, List.mem_cons, List.mem_flatMap, List.mem_range]
      exact .inr (.inr ⟨i, hi, .inl rfl⟩)
    · exact own_crew h
  | _ => exact own_crew h

theorem own_obj {w : Who} {l : Loc α} {j : Nat} {k : Chan.Op α} {f : Chan.Res α → Loc α} (h : own P it w l = .call j k f) :
    j ∈ List.range (P.stages.length + 1) := by
  rw [List.mem_range]
  cases w with
  | src => cases l <;> simp only [own, reduceCtorEq] at h; repeat' split at h
           all_goals cases h <;> omega
  | consumer => cases l <;> simp only [own, reduceCtorEq] at h; split at h <;> cases h; omega
  | stage i =>
    cases l <;> simp only [own, reduceCtorEq] at h
    cases hg : P.stages[i]? with
    | none => simp [hg] at h
    | some g =>
      have := (List.getElem?_eq_some_iff.1 hg).1
      rw [hg] at h
      simp only at h
      repeat' split at h
      all_goals cases h <;> omega
  | worker i u =>
    cases l <;> simp only [own, reduceCtorEq] at h
    cases hg : P.stages[i]? with
    | none => simp [hg] at h
    | some g =>
      have := (List.getElem?_eq_some_iff.1 hg).1
      rw [hg] at h
      cases g <;> simp only [reduceCtorEq] at h
      repeat' split at h
      all_goals cases h <;> omega

theorem uses : Uses (prog P it tid inj) (crew P) (List.range (P.stages.length + 1)) where
  who w ps hw := Classical.byContradiction fun h => hw (next_crew h)
  obj w ps j k f h := by
    cases w with
    | stage i =>
      simp only [prog] at h
      split at h
      · cases h
      · exact own_obj h
    | _ => exact own_obj h

theorem sum_lt {f g : Who → Nat} : ∀ {Ws : List Who} {w : Who}, w ∈ Ws → (∀ u, f u ≤ g u) → f w < g w → (Ws.map f).sum < (Ws.map g).sum := by
  have hle : ∀ Ws : List Who, (∀ u, f u ≤ g u) → (Ws.map f).sum ≤ (Ws.map g).sum := by
    intro Ws h
    induction Ws with
    | nil => simp
    | cons x Ws ih => have := h x; simp only [List.map_cons, List.sum_cons]; omega
  intro Ws
  induction Ws with
  | nil => intro w h; cases h
  | cons x Ws ih =>
    intro w hm h hw
    simp only [List.map_cons, List.sum_cons]
    have h1 := hle Ws h
    have h2 := h x
    rcases List.mem_cons.1 hm with rfl | hm
    · omega
    · have := ih hm h hw; omega

theorem acc {l : List α} {kd : Pipe.Kind} {gs : List (Pipe.Stage α)} (hok : ∀ g ∈ gs, g.Ok) :
    ∀ N M (c : Atomic α) (s : Pipe.State α), R (Pipe.Pipe.ofList l kd gs) it tid c s → Pipe.cost l gs s = N →
      ((crew (Pipe.Pipe.ofList l kd gs)).map (wgt tid c)).sum = M →
      Acc (SysInt (absM (chans (Pipe.Pipe.ofList l kd gs))) (prog (Pipe.Pipe.ofList l kd gs) it tid inj)) c := by
  intro N
  induction N using Nat.strongRecOn with
  | ind N ihN =>
    intro M
    induction M using Nat.strongRecOn with
    | ind M ihM =>
      intro c s hR hN hM
      constructor
      rintro c' ⟨w, es, hs⟩
      rcases (sim_step hR hs).1 with ⟨h1, h2, h3⟩ | ⟨a, s', tr, h1, h2⟩
      · have hw : w ∈ crew (Pipe.Pipe.ofList l kd gs) := by
          cases hin : c.inside w with
          | none =>
            apply next_crew (it := it) (tid := tid) (inj := inj) (ps := c.ps)
            intro hx
            simp [Sys.step, hin, hx] at hs
          | some q =>
            obtain ⟨k, ho, _⟩ := hR.calls w q.1 q.2 hin
            exact own_crew (it := it) (l := c.ps w) (by rw [ho]; simp)
        refine ihM _ ?_ c' s h1 hN rfl
        rw [← hM]
        refine sum_lt hw ?_ h2
        intro u
        by_cases hu : u = w
        · subst hu; exact h2.le
        · exact (h3 u hu).le
      · exact ihN _ (hN ▸ Pipe.cost_step hok h1) _ c' s' h2 rfl rfl

/-- **C97, termination**: no pipeline over a list runs for ever, in whatever order its coroutines make their steps. (`true`: the time for
which `lock()` spins is over, co_utils.cpp:10.) -/
theorem C97_terminates {l : List α} {kd : Pipe.Kind} {gs : List (Pipe.Stage α)} (hok : ∀ g ∈ gs, g.Ok) {as : List (Who × Bool)}
    {c : Full α} {es : List (Nat × Ev (Chan.Op α) (Chan.Res α) (Chan.Lin α))}
    (h : Exec (Pipe.Pipe.ofList l kd gs) it tid inj as c es) :
    ¬ ∃ g : Nat → Full α, g 0 = c ∧ ∀ n, ∃ w e,
      (g n).step (fullM (chans (Pipe.Pipe.ofList l kd gs))) (prog (Pipe.Pipe.ofList l kd gs) it tid inj) (w, true) = some (g (n + 1), e) := by
  obtain ⟨⟨_, s, _, _, hR⟩, _⟩ := reach h
  exact C22_programs_terminate _ _ uses (List.nodup_dedup _) (List.nodup_range) _ _ as c es h (acc hok _ _ _ s hR rfl rfl)

/-! ## A concrete case -/

/-- A numbering of the coroutines for the examples. (Concerns co_pipeline.h:65-352.) -/
def num : Who → Tid
  | .src => 0
  | .consumer => 1
  | .stage i => 2 * i + 2
  | .worker i w => 2 * Nat.pair i w + 3

theorem num_inj : ∀ a b, num a = num b → a = b := by
  intro a b h
  cases a with
  | src => cases b <;> simp only [num] at h <;> first | rfl | exact absurd h (by decide) | exact absurd h (by simp)
  | consumer => cases b <;> simp only [num] at h <;> first | rfl | exact absurd h (by decide) | exact absurd h (by simp)
  | stage i =>
    cases b with
    | stage j => simp only [num] at h; have : i = j := Nat.eq_of_mul_eq_mul_left (by decide : 0 < 2) (Nat.add_right_cancel h); rw [this]
    | src => simp only [num] at h; exact absurd h (by simp)
    | consumer => simp only [num] at h; exact absurd h (by simp)
    | worker j v => simp only [num] at h; exact absurd h (fun h => by have := congrArg (· % 2) h; simp [Nat.add_mod] at this)
  | worker i w =>
    cases b with
    | worker j v =>
      simp only [num] at h
      have : Nat.pair i w = Nat.pair j v := Nat.eq_of_mul_eq_mul_left (by decide : 0 < 2) (Nat.add_right_cancel h)
      rw [Nat.pair_eq_pair] at this
      rw [this.1, this.2]
    | src => simp only [num] at h; exact absurd h (by simp)
    | consumer => simp only [num] at h; exact absurd h (by simp)
    | stage j => simp only [num] at h; exact absurd h.symm (fun h => by have := congrArg (· % 2) h; simp [Nat.add_mod] at this)

/-- Proof device: run the coroutines of `ws` one after the other, each as long as it can, at most `n` steps. (Concerns co_pipeline.h:65-352.) -/
def drive (P : Pipe.Pipe Nat) (it : Bool) : List Who → Nat → Full Nat → Full Nat
  | [], _, c => c
  | w :: ws, n, c => drive P it ws n (go w n c)
where
  /-- Proof device: one of them. -/
  go (w : Who) : Nat → Full Nat → Full Nat
    | 0, c => c
    | n + 1, c => match c.step (fullM (chans P)) (prog P it num num_inj) (w, true) with
      | some r => go w n r.1
      | none => c

theorem go_runs (P : Pipe.Pipe Nat) (it : Bool) (w : Who) : ∀ n c, ∃ as es,
    runs (Sys.step (fullM (chans P)) (prog P it num num_inj)) c as = some (drive.go P it w n c, es) := by
  intro n
  induction n with
  | zero => intro c; exact ⟨[], [], rfl⟩
  | succ n ih =>
    intro c
    simp only [drive.go]
    split
    · next r hr =>
      obtain ⟨as, es, h⟩ := ih r.1
      exact ⟨(w, true) :: as, r.2 ++ es, by simp only [runs, hr, h]⟩
    · exact ⟨[], [], rfl⟩

/-- Proof device: `drive` is an execution. -/
theorem drive_runs (P : Pipe.Pipe Nat) (it : Bool) : ∀ ws n c, ∃ as es,
    runs (Sys.step (fullM (chans P)) (prog P it num num_inj)) c as = some (drive P it ws n c, es) := by
  intro ws n
  induction ws with
  | nil => intro c; exact ⟨[], [], rfl⟩
  | cons w ws ih =>
    intro c
    obtain ⟨as, es, h⟩ := go_runs P it w n c
    obtain ⟨bs, fs, h'⟩ := ih (drive.go P it w n c)
    exact ⟨as ++ bs, es ++ fs, runs_append h h'⟩

/-- The source `[1, 2, 3]`, doubled, what is divisible by 4 thrown away. (Concerns co_pipeline.h:65-352.) -/
def sample (kd : Pipe.Kind) : Pipe.Pipe Nat := Pipe.Pipe.ofList [1, 2, 3] kd [.map (2 * ·), .filter (fun n => n % 4 = 2)]

/-- Proof device: the start. (Concerns co_pipeline.h:65-352.) -/
def begin (P : Pipe.Pipe Nat) : Full Nat := Sys.initF (start P) fun _ => Chan.Ch.init

set_option maxRecDepth 20000 in
/-- Everybody first waits for the one before, then the items come. -/
example : ∃ as c es, Exec (sample .unlimited) true num num_inj as c es ∧ c.ps .consumer = .consumer [2, 6] true := by
  obtain ⟨as, es, h⟩ := drive_runs (sample .unlimited) true [.consumer, .stage 1, .stage 0, .src, .stage 0, .stage 1, .consumer] 200
    (begin (sample .unlimited))
  exact ⟨as, _, es, h, rfl⟩

set_option maxRecDepth 20000 in
/-- With a channel of size 0 (`sync`) the source waits after every item until it is taken. -/
example : ∃ as c es, Exec (sample .sync) false num num_inj as c es ∧ c.ps .consumer = .consumer [2, 6] true := by
  obtain ⟨as, es, h⟩ := drive_runs (sample .sync) false
    [.consumer, .stage 1, .stage 0, .src, .stage 0, .src, .stage 0, .src, .stage 0, .src, .stage 0, .stage 1, .consumer] 200
    (begin (sample .sync))
  exact ⟨as, _, es, h, rfl⟩

set_option maxRecDepth 20000 in
/-- On the way: the first result has arrived, the consumer waits for the next. -/
example : ∃ as c es, Exec (sample .sync) false num num_inj as c es ∧ c.ps .consumer = .consumer [2] false ∧
    (c.inside .consumer).isSome = true := by
  obtain ⟨as, es, h⟩ := drive_runs (sample .sync) false
    [.consumer, .stage 1, .stage 0, .src, .stage 0, .stage 1, .consumer] 200 (begin (sample .sync))
  exact ⟨as, _, es, h, rfl, rfl⟩

set_option maxRecDepth 20000 in
/-- A `fork` with two workers, of which the second is faster. -/
example : ∃ as c es, Exec (Pipe.Pipe.ofList [1, 2, 3] (.fixed 2) [.fork 2 (2 * ·)]) true num num_inj as c es ∧
    c.ps .consumer = .consumer [4, 6, 2] true := by
  obtain ⟨as, es, h⟩ := drive_runs (Pipe.Pipe.ofList [1, 2, 3] (.fixed 2) [.fork 2 (2 * ·)]) true
    [.src, .worker 0 0] 15 (begin (Pipe.Pipe.ofList [1, 2, 3] (.fixed 2) [.fork 2 (2 * ·)]))
  obtain ⟨bs, fs, h'⟩ := drive_runs (Pipe.Pipe.ofList [1, 2, 3] (.fixed 2) [.fork 2 (2 * ·)]) true
    [.src, .worker 0 1, .worker 0 0, .stage 0, .consumer] 200 _
  exact ⟨_, _, _, runs_append h h', rfl⟩

end Verif.Real
