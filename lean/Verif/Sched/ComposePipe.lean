import Verif.Sched.ComposeProg
import Verif.Pipe.RealLive
import Mathlib.Data.Nat.Find

/-! # Programs and pipelines when their thread goes idle (C102) -/

namespace Verif.Compose
section
open Monitor
variable {σ C K V E W L : Type} [DecidableEq C] [DecidableEq W]

/-- **C102 for any program**: when the thread that runs the coroutines of a program goes idle, no step of the program is left; nobody is
inside `lock()` or `unlock()` of any mutex; who is inside a call waits in the queue of a condition variable, who is not has ended or waits
for the end of a coroutine that has not ended. -/
theorem C102_program_idle {o : Nat → Monitor.Obj σ C K V E} {p : Prog W L K V} {q : Join W L} (hq : JoinLaws p q) {R : Nat} {l0 : W → L}
    {s0 : Nat → σ} {as : List (Act (W × Bool))} {s : St (Sys W L V (Full σ C K V))} {es : List (Ev (Nat × Monitor.Ev K V E))}
    (h : Idle (program o p q) R (Sys.initF l0 s0) as s es) :
    (∀ a, s.obj.step (fullM o) p a = none) ∧ (∀ j t, (s.obj.obs j).mx.pc t = .out) ∧
    ∀ w, match s.obj.inside w with
      | none => q.fin w (s.obj.ps w) = true ∨ ∃ u ∈ q.joins w (s.obj.ps w), q.over (s.obj.ps u) = false
      | some (j, _) => ∃ c k, (s.obj.obs j).low.pc (p.tid w) = .pYield c k ∧ p.tid w ∈ (s.obj.obs j).low.wl c := by
  obtain ⟨s', hp⟩ := h.pick
  have hst : ∀ a, s.obj.step (fullM o) p a = none := fun a =>
    stuck (program_laws hq l0 s0) (program_init l0 s0) h.run hp rfl h.here a rfl
  obtain ⟨-, h1, h2⟩ := C22_programs_stuck o p l0 s0 _ s.obj _ (obj_runs as _ _ _ h.run) hst
  refine ⟨hst, h1, fun w => ?_⟩
  have h3 := h2 w
  cases hi : s.obj.inside w with
  | some x =>
    rw [hi] at h3
    obtain ⟨c, k, h4, _, h5⟩ := h3
    exact ⟨c, k, h4, h5⟩
  | none =>
    simp only
    cases hf : q.fin w (s.obj.ps w) with
    | true => exact .inl rfl
    | false =>
      right
      have hb : (program o p q).busy s.obj (p.tid w) = true := by simp [program, hq.who.2 rfl, hf]
      have ha := ((C101_idle (program_laws hq l0 s0) (program_init l0 s0) h.run hp rfl (p.tid w) (h.here _ hb)).1 hb).1
      simpa [program, hq.who.2 rfl, hi, Join.waiting] using ha

end

section
open Monitor Real
variable {α : Type}

/-- The coroutine of a `fork` that waits for its workers (co_pipeline.h:288-291). -/
def waits (P : Pipe.Pipe α) : Who → Loc α → List Who
  | .stage i, .stage (.join _) => match P.stages[i]? with
    | some (.fork n _) => (List.range n).map (.worker i)
    | _ => []
  | _, _ => []

/-- Is it the coroutine of a `fork` at that point? (Concerns co_pipeline.h:65-352, co_ctx.cpp:181-207.) -/
def atJoin (P : Pipe.Pipe α) : Who → Loc α → Bool
  | .stage i, .stage (.join _) => match P.stages[i]? with
    | some (.fork _ _) => true
    | _ => false
  | _, _ => false

/-- For whose end the coroutines of a pipeline wait; a coroutine has nothing left to do if the pipeline has no next step for it and it does
not wait for workers. (Concerns co_pipeline.h:65-352, co_ctx.cpp:181-207.) -/
def pipeJoin (P : Pipe.Pipe α) (it : Bool) (who : Nat → Option Who) : Join Who (Loc α) where
  joins := waits P
  over := ended
  fin w l := (match own P it w l with
    | .stop => true
    | _ => false) && !atJoin P w l
  who := who
  all := (List.range P.stages.length).map .stage

theorem ended_iff (l : Loc α) : ended l = true ↔ l = .worker .done := by
  cases l with
  | worker p => cases p <;> simp [ended]
  | _ => simp [ended]

theorem waits_nil {P : Pipe.Pipe α} {w : Who} {l : Loc α} (h : waits P w l ≠ []) :
    ∃ i x n f, w = .stage i ∧ l = .stage (.join x) ∧ P.stages[i]? = some (.fork n f) ∧ waits P w l = (List.range n).map (.worker i) := by
  cases w with
  | stage i =>
    cases l with
    | stage p =>
      cases p with
      | join x =>
        cases hg : P.stages[i]? with
        | none => simp [waits, hg] at h
        | some g =>
          cases g with
          | fork n f => exact ⟨i, x, n, f, rfl, rfl, hg, by simp [waits, hg]⟩
          | _ => simp [waits, hg] at h
      | _ => simp [waits] at h
    | _ => simp [waits] at h
  | _ => simp [waits] at h

theorem pipeJoin_laws (P : Pipe.Pipe α) (it : Bool) {tid : Who → Tid} {inj : ∀ a b, tid a = tid b → a = b} {who : Nat → Option Who}
    (hwho : ∀ t w, who t = some w ↔ tid w = t) : JoinLaws (prog P it tid inj) (pipeJoin P it who) where
  stop {w ps} h := by
    simp only [Join.waiting, pipeJoin, List.any_eq_true, Bool.not_eq_true'] at h
    obtain ⟨u, h1, h2⟩ := h
    obtain ⟨i, x, n, f, rfl, hl, hg, hw⟩ := waits_nil (List.ne_nil_of_mem h1)
    rw [hw] at h1
    simp only [List.mem_map, List.mem_range] at h1
    obtain ⟨v, hv, rfl⟩ := h1
    have hj : joined P i ps = false := by
      simp only [joined, hg, hl, List.all_eq_false]
      exact ⟨v, by simpa using hv, by simp [h2]⟩
    simp [prog, hj, own, hl, hg, joining]
  fin {w ps} h := by
    simp only [pipeJoin, Bool.and_eq_true, Bool.not_eq_true'] at h
    obtain ⟨h1, h2⟩ := h
    have h3 : own P it w (ps w) = .stop := by
      split at h1
      · assumption
      · cases h1
    simp only [prog]
    cases w with
    | stage i =>
      have hj : joined P i ps = false := by
        simp only [joined]
        split
        · rename_i n f x hg hl
          simp [atJoin, hl, hg] at h2
        · rfl
      simp [hj, h3]
    | _ => exact h3
  over {l} h w := by
    rw [show (pipeJoin P it who).over = ended from rfl, ended_iff] at h
    subst h
    have h2 : atJoin P w (.worker .done) = false := by cases w <;> rfl
    simp only [pipeJoin, h2]
    cases w with
    | worker i v =>
      simp only [own]
      cases hg : P.stages[i]? with
      | none => rfl
      | some g => cases g <;> simp
    | _ => rfl
  last {w l} h := by
    simp only [pipeJoin, Bool.and_eq_true, Bool.not_eq_true'] at h ⊢
    cases hw : waits P w l with
    | nil => rfl
    | cons a t =>
      obtain ⟨i, x, n, f, rfl, rfl, hg, _⟩ := waits_nil (P := P) (w := w) (l := l) (by rw [hw]; simp)
      simp [atJoin, hg] at h
  all {w l} h := by
    obtain ⟨i, x, n, f, rfl, rfl, hg, _⟩ := waits_nil h
    simp only [pipeJoin, List.mem_map, List.mem_range]
    exact ⟨i, (List.getElem?_eq_some_iff.1 hg).1, rfl⟩
  who := hwho _ _

/-- A pipeline with every step of its channels, on the thread whose env is modelled. (Concerns co_pipeline.h:65-352, co_ctx.cpp:181-207.) -/
abbrev pipeline (P : Pipe.Pipe α) (it : Bool) (tid : Who → Tid) (inj : ∀ a b, tid a = tid b → a = b) (who : Nat → Option Who) :=
  program (chans P) (prog P it tid inj) (pipeJoin P it who)

variable {it : Bool} {tid : Who → Tid} {inj : ∀ a b, tid a = tid b → a = b} {who : Nat → Option Who}

/-- **C102 for pipelines**: when the thread that runs the coroutines of a pipeline goes idle, the consumer has received everything: the
value of the list functions for the items of the source. -/
theorem C102_pipeline_idle (hwho : ∀ t w, who t = some w ↔ tid w = t) {R : Nat} {l : List α} {kd : Pipe.Kind}
    {gs : List (Pipe.Stage α)} (hk : kd ≠ .fixed 0) (hf : ∀ g ∈ gs, g.isFork = false) (hg : ∀ n f, Pipe.Stage.group n f ∈ gs → 0 < n)
    {as : List (Act (Who × Bool))} {s : St (Real.Full α)} {es : List (Ev _)}
    (h : Idle (pipeline (Pipe.Pipe.ofList l kd gs) it tid inj who) R (Sys.initF (start (Pipe.Pipe.ofList l kd gs)) fun _ => Chan.Ch.init)
      as s es) :
    s.obj.ps .consumer = .consumer (gs.foldl (fun l g => g.fn l) l) true :=
  C97_delivered_in_the_end hk hf hg (obj_runs as _ _ _ h.run) (C102_program_idle (pipeJoin_laws _ it hwho) h).1

/-- **C102 for a `fork`**: when the thread goes idle the consumer has received the results for all items, in some order. -/
theorem C102_fork_idle (hwho : ∀ t w, who t = some w ↔ tid w = t) {R : Nat} {l : List α} {kd : Pipe.Kind} {n : Nat} {f : α → α}
    (hk : kd ≠ .fixed 0) (hn : 0 < n) {as : List (Act (Who × Bool))} {s : St (Real.Full α)} {es : List (Ev _)}
    (h : Idle (pipeline (Pipe.Pipe.ofList l kd [.fork n f]) it tid inj who) R
      (Sys.initF (start (Pipe.Pipe.ofList l kd [.fork n f])) fun _ => Chan.Ch.init) as s es) :
    ∃ Y, s.obj.ps .consumer = .consumer Y true ∧ Y.Perm (l.map f) :=
  C97_fork_delivered_in_the_end hk hn (obj_runs as _ _ _ h.run) (C102_program_idle (pipeJoin_laws _ it hwho) h).1

/-- **C102, any stages and any source**: when the thread goes idle and the source has been asked for no more than `X`, the consumer has
received one of the possible results for `X`, completely. -/
theorem C102_any_pipeline_idle (hwho : ∀ t w, who t = some w ↔ tid w = t) {R : Nat} {P : Pipe.Pipe α} (hok : ∀ g ∈ P.stages, g.Ok)
    (hk : P.kind ≠ .fixed 0) {as : List (Act (Who × Bool))} {s : St (Real.Full α)} {es : List (Ev _)}
    (h : Idle (pipeline P it tid inj who) R (Sys.initF (start P) fun _ => Chan.Ch.init) as s es) {X : List α}
    (hX : ∀ j < X.length, P.src j = X[j]?) (hn : ∀ k p, s.obj.ps .src = .src k p → k ≤ X.length) :
    s.obj.inside .consumer = none ∧ ∃ Y, Pipe.Dens P.stages X Y ∧ s.obj.ps .consumer = .consumer Y true :=
  C97_progress hok hk (obj_runs as _ _ _ h.run) (C102_program_idle (pipeJoin_laws _ it hwho) h).1 hX hn

/-! ## Termination -/

section
variable {S A E : Type}

/-- An infinite execution. (Concerns co_pipeline.h:65-352, co_ctx.cpp:181-207.) -/
structure Forever (o : Obj S A E) (R : Nat) (s : St S) (as : Nat → Act A) (g : Nat → St S) : Prop where
  init : g 0 = s
  steps : ∀ n, ∃ es, step o R (g n) (as n) = some (g (n + 1), es)

/-- If an object alone can not make infinitely many steps of the kind `ok`, there are finitely many of them in every infinite sequence of
states (`x n`: the step of the object at `n`, if there is one). -/
theorem finitely {f : S → A → Option (S × List E)} {ok : A → Prop} {g : Nat → S}
    (hfin : ¬ ∃ k : Nat → S, k 0 = g 0 ∧ ∀ n, ∃ a es, ok a ∧ f (k n) a = some (k (n + 1), es)) {x : Nat → Option A}
    (hx : ∀ n a, x n = some a → ok a ∧ ∃ es, f (g n) a = some (g (n + 1), es)) (hn : ∀ n, x n = none → g (n + 1) = g n) :
    ∃ n, ∀ m, n ≤ m → x m = none := by
  by_contra hinf
  simp only [not_exists, not_forall, exists_prop] at hinf
  have hex : ∀ n, ∃ k, x (n + k) ≠ none := by
    intro n
    obtain ⟨m, h1, h2⟩ := hinf n
    exact ⟨m - n, by rw [show n + (m - n) = m by omega]; exact h2⟩
  have hskip : ∀ n k, (∀ i, n ≤ i → i < n + k → x i = none) → g (n + k) = g n := by
    intro n k
    induction k with
    | zero => intro _; rfl
    | succ k ih =>
      intro hk
      rw [← ih fun i h1 h2 => hk i h1 (by omega)]
      exact hn (n + k) (hk _ (by omega) (by omega))
  classical
  let nxt : Nat → Nat := fun n => n + Nat.find (hex n)
  have hnxt : ∀ n, x (nxt n) ≠ none ∧ g (nxt n) = g n := by
    intro n
    refine ⟨Nat.find_spec (hex n), hskip n _ fun i h1 h2 => ?_⟩
    have := Nat.find_min (hex n) (m := i - n) (by omega)
    rw [show n + (i - n) = i by omega] at this
    exact Classical.not_not.1 this
  let ix : Nat → Nat := fun k => Nat.rec (nxt 0) (fun _ m => nxt (m + 1)) k
  refine hfin ⟨fun k => g (ix k), (hnxt 0).2, fun k => ?_⟩
  have hob : x (ix k) ≠ none := by
    cases k with
    | zero => exact (hnxt 0).1
    | succ k => exact (hnxt (ix k + 1)).1
  obtain ⟨a, ha⟩ := Option.ne_none_iff_exists'.1 hob
  obtain ⟨h1, es, h2⟩ := hx _ a ha
  refine ⟨a, es, h1, ?_⟩
  show f (g (ix k)) a = some (g (nxt (ix k + 1)), es)
  rw [(hnxt (ix k + 1)).2]
  exact h2

/-- The step of the object, if it is one. (Concerns co_pipeline.h:65-352, co_ctx.cpp:181-207.) -/
def Act.obj? : Act A → Option A
  | .obj a => some a
  | .env _ => none

/-- If the object alone can not make infinitely many steps of the kind `ok`, it makes finitely many of them in every execution. -/
theorem finitely_many {o : Obj S A E} {R : Nat} {ok : A → Prop} {s : St S}
    (hfin : ¬ ∃ f : Nat → S, f 0 = s.obj ∧ ∀ n, ∃ a es, ok a ∧ o.step (f n) a = some (f (n + 1), es)) {as : Nat → Act A} {g : Nat → St S}
    (h : Forever o R s as g) (hok : ∀ n a, as n = .obj a → ok a) : ∃ n, ∀ m, n ≤ m → ∀ a, as m ≠ .obj a := by
  have hf := finitely (f := o.step) (ok := ok) (g := fun n => (g n).obj) (by rw [h.init]; exact hfin)
    (x := fun n => (as n).obj?) ?_ ?_
  · obtain ⟨n, hn⟩ := hf
    refine ⟨n, fun m hm a ha => ?_⟩
    have := hn m hm
    rw [ha] at this
    cases this
  · intro n a ha
    have ha' : as n = .obj a := by
      cases hq : as n with
      | env b => rw [hq] at ha; cases ha
      | obj b => rw [hq] at ha; cases ha; rfl
    refine ⟨hok n a ha', ?_⟩
    obtain ⟨es, hs⟩ := h.steps n
    rw [ha'] at hs
    simp only [step] at hs
    split at hs
    · split at hs
      · cases hs
      · rename_i m es' hm
        simp only [Option.map_eq_some_iff, Prod.mk.injEq] at hs
        obtain ⟨r, -, h1, -⟩ := hs
        exact ⟨es', by rw [← h1]; exact hm⟩
    · cases hs
  · intro n ha
    obtain ⟨es, hs⟩ := h.steps n
    cases hq : as n with
    | obj b => rw [hq] at ha; cases ha
    | env b =>
      rw [hq] at hs
      simp only [step] at hs
      split at hs
      · simp only [Option.map_eq_some_iff, Prod.mk.injEq] at hs
        obtain ⟨r, -, h1, -⟩ := hs
        simp only [← h1]
      · cases hs

end

/-- **C102, the work is finite**: in no infinite execution of the thread do the coroutines of a pipeline make infinitely many steps (the
time to spin for a mutex being over: `true`); from some point on the scheduler only switches between coroutines that do something else. -/
theorem C102_pipeline_finite {R : Nat} {l : List α} {kd : Pipe.Kind} {gs : List (Pipe.Stage α)} (hok : ∀ g ∈ gs, g.Ok)
    {as : List (Act (Who × Bool))} {s : St (Real.Full α)} {es : List (Ev _)}
    (h : runs (step (pipeline (Pipe.Pipe.ofList l kd gs) it tid inj who) R)
      (St.init (Sys.initF (start (Pipe.Pipe.ofList l kd gs)) fun _ => Chan.Ch.init)) as = some (s, es))
    {bs : Nat → Act (Who × Bool)} {g : Nat → St (Real.Full α)}
    (hf : Forever (pipeline (Pipe.Pipe.ofList l kd gs) it tid inj who) R s bs g) (hb : ∀ n w b, bs n = .obj (w, b) → b = true) :
    ∃ n, ∀ m, n ≤ m → ∀ a, bs m ≠ .obj a := by
  refine finitely_many (ok := fun a => a.2 = true) ?_ hf fun n a ha => hb n a.1 a.2 ha
  rintro ⟨f, h0, hs⟩
  refine C97_terminates hok (obj_runs as _ _ _ h) ⟨f, h0, fun n => ?_⟩
  obtain ⟨⟨w, b⟩, es, h1, h2⟩ := hs n
  simp only at h1
  subst h1
  exact ⟨w, es, h2⟩

/-! ## A concrete case -/

/-- Whose number is it (`num`)? (Concerns co_pipeline.h:65-352, co_ctx.cpp:181-207.) -/
def whoNum (t : Nat) : Option Who :=
  if t = 0 then some .src else if t = 1 then some .consumer
  else if t % 2 = 0 then some (.stage (t / 2 - 1))
  else ((List.range t).flatMap fun i => (List.range t).map fun w => Who.worker i w).find? fun w => num w = t

theorem whoNum_num (t : Nat) (w : Who) : whoNum t = some w ↔ num w = t := by
  constructor
  · intro h
    unfold whoNum at h
    split at h
    · cases h; simp [num, *]
    · split at h
      · cases h; simp [num, *]
      · split at h
        · cases h
          have : 2 * (t / 2 - 1) + 2 = t := by omega
          exact this
        · simpa using List.find?_some h
  · rintro rfl
    cases w with
    | src => rfl
    | consumer => rfl
    | stage i =>
      have : whoNum (2 * i + 2) = some (.stage i) := by
        unfold whoNum
        rw [if_neg (by omega), if_neg (by omega), if_pos (by omega)]
        congr 2; omega
      exact this
    | worker i v =>
      have : whoNum (2 * Nat.pair i v + 3) = some (.worker i v) := by
        have h1 := Nat.left_le_pair i v
        have h2 := Nat.right_le_pair i v
        unfold whoNum
        rw [if_neg (by omega), if_neg (by omega), if_neg (by omega)]
        generalize ht : 2 * Nat.pair i v + 3 = t
        cases hf : ((List.range t).flatMap fun i' => (List.range t).map fun w => Who.worker i' w).find? fun w => num w = t with
        | none =>
          rw [List.find?_eq_none] at hf
          have := hf (.worker i v) (by
            simp only [List.mem_flatMap, List.mem_range, List.mem_map]
            exact ⟨i, by omega, v, by omega, rfl⟩)
          exact absurd (show num (.worker i v) = t from ht) (by simpa using this)
        | some u =>
          have := List.find?_some hf
          rw [num_inj u (.worker i v) ((of_decide_eq_true this).trans ht.symm)]
      exact this

/-- Who does not belong to the pipeline has nothing to do. -/
theorem start_fin (P : Pipe.Pipe α) (it : Bool) (who : Nat → Option Who) (w : Who) (hw : w ∉ crew P) :
    (pipeJoin P it who).fin w (start P w) = true := by
  have h1 : own P it w (start P w) = .stop := by
    by_cases h : own P it w (start P w) = .stop
    · exact h
    · exact absurd (own_crew h) hw
  have h2 : atJoin P w (start P w) = false := by
    cases w with
    | stage i =>
      cases hg : P.stages[i]? with
      | none => simp [start, hg, atJoin]
      | some g =>
        exfalso
        apply hw
        simp only [crew, List.mem_dedup, List.mem_cons, List.mem_flatMap, List.mem_range]
        exact .inr (.inr ⟨i, (List.getElem?_eq_some_iff.1 hg).1, .inl rfl⟩)
    | _ => rfl
  simp [pipeJoin, h1, h2]

/-- In a program nobody begins anew. -/
theorem calm {S A E : Type} {o : Obj S A E} {I : S → Prop} (L : Laws o I) (hin : ∀ a, o.inner a = true) (t : Nat) :
    ∀ (as : List A) (s s' : S) (es : List E), I s → runs o.step s as = some (s', es) → o.busy s t = false → o.busy s' t = false := by
  intro as
  induction as with
  | nil =>
    intro s s' es _ h hb
    simp only [runs, Option.some.injEq, Prod.mk.injEq] at h
    rw [← h.1]; exact hb
  | cons a as ih =>
    intro s s' es hI h hb
    obtain ⟨s1, e1, e2, h1, h2, rfl⟩ := runs_cons h
    refine ih s1 s' e2 (L.inv hI h1) h2 ?_
    by_cases ht : t = o.who a
    · subst ht
      rw [L.outside hI hb (hin a)] at h1; cases h1
    · rw [(L.other hI h1 t ht).1]; exact hb

theorem idle_pipe (P : Pipe.Pipe Nat) {it : Bool} {R : Nat} {as : List (Act (Who × Bool))} {s s' : St (Real.Full Nat)} {es : List (Ev _)}
    (hr : runs (step (pipeline P it num num_inj whoNum) R) (St.init (begin P)) as = some (s, es))
    (hp : step (pipeline P it num num_inj whoNum) R s (.env .pick) = some (s', [.env (.pick none)]))
    (hq : ∀ w ∈ crew P, Settled (Sched.view (envs es)) (num w)) :
    Idle (pipeline P it num num_inj whoNum) R (begin P) as s es := by
  refine ⟨hr, ⟨s', hp⟩, fun t ht => ?_⟩
  cases hw : whoNum t with
  | none => simp [program, pipeJoin, hw] at ht
  | some w =>
    have hn := (whoNum_num t w).1 hw
    by_cases hc : w ∈ crew P
    · rw [← hn]; exact hq w hc
    · have h0 : (pipeline P it num num_inj whoNum).busy (begin P) t = false := by
        have := start_fin P it whoNum w hc
        simp only [program, hw, begin, Sys.initF, Option.isSome_none, Bool.false_or, Bool.not_eq_false',
          show (pipeJoin P it whoNum).who t = some w from hw]
        exact this
      have := calm (program_laws (pipeJoin_laws P it whoNum_num) (start P) fun _ => Chan.Ch.init) (fun _ => rfl) t _ _ _ _
        (program_init _ _) (obj_runs as _ _ _ hr) h0
      rw [this] at ht; cases ht

/-- The scheduler picks, `w` makes `n` steps, the coroutines `r` are woken; `c`: it has ended. (Concerns co_pipeline.h:65-352, co_ctx.cpp:181-207.) -/
def turn (w : Who) (n : Nat) (r c : List Nat) : List (Act (Who × Bool)) :=
  [.env .pick] ++ List.replicate n (.obj (w, true)) ++ r.flatMap (rouse · 5) ++ c.map fun c => .env (.finish c)

/-- `sample` with a channel of capacity 1; the coroutines are added with the consumer first. (Concerns co_pipeline.h:65-352, co_ctx.cpp:181-207.) -/
def turns : List (Act (Who × Bool)) :=
  come 1 5 ++ come 4 5 ++ come 2 5 ++ come 0 5 ++
  turn .consumer 15 [] [] ++ turn (.stage 1) 15 [] [] ++ turn (.stage 0) 15 [] [] ++ turn .src 32 [2] [] ++
  turn (.stage 0) 45 [0, 4] [] ++ turn (.stage 1) 54 [1] [] ++ turn .consumer 39 [] [] ++ turn .src 31 [2] [] ++
  turn (.stage 0) 45 [0, 4] [] ++ turn (.stage 1) 39 [] [] ++ turn .src 35 [2] [0] ++ turn (.stage 0) 59 [4] [2] ++
  turn (.stage 1) 99 [1] [4] ++ turn .consumer 65 [] [1]

set_option maxRecDepth 40000 in
/-- Non-trivial case of C102: 14 times somebody is picked, then the thread is idle and the consumer has everything. -/
example : ∃ s es, Idle (pipeline (sample (.fixed 1)) true num num_inj whoNum) 7 (begin (sample (.fixed 1))) turns s es ∧
    s.obj.ps .consumer = .consumer [2, 6] true :=
  ⟨_, _, idle_pipe _ rfl rfl (by decide), rfl⟩

set_option maxRecDepth 40000 in
/-- Non-trivial case of `C102_pipeline_finite`: after that the scheduler looks for somebody to run for ever. -/
example : ∃ s es, runs (step (pipeline (sample (.fixed 1)) true num num_inj whoNum) 7) (St.init (begin (sample (.fixed 1))))
      (turns ++ [.env .pick]) = some (s, es) ∧
    Forever (pipeline (sample (.fixed 1)) true num num_inj whoNum) 7 s (fun _ => .env .pick) fun _ => s :=
  ⟨_, _, rfl, rfl, fun _ => ⟨[.env (.pick none)], rfl⟩⟩

/-- A coroutine that waits already is added. (Concerns co_pipeline.h:65-352, co_ctx.cpp:181-207.) -/
def comeAsleep (c p R : Nat) : List (Act (Who × Bool)) :=
  [.env (.add c { Sched.ready p with res := [R], waiting := true }), .env (.wake c .read), .env (.wake c (.upd p))]

/-- A `fork` with two workers (3 and 5). (Concerns co_pipeline.h:65-352, co_ctx.cpp:181-207.) -/
def forkTurns : List (Act (Who × Bool)) :=
  come 1 5 ++ comeAsleep 2 5 7 ++ come 3 5 ++ come 5 5 ++ come 0 5 ++
  turn .consumer 15 [] [] ++ turn (.worker 0 0) 15 [] [] ++ turn (.worker 0 1) 15 [] [] ++ turn .src 52 [3, 5] [0] ++
  turn (.worker 0 0) 68 [1] [3] ++ turn .consumer 63 [] [] ++ turn (.worker 0 1) 11 [2] [5] ++ turn (.stage 0) 21 [1] [2] ++
  turn .consumer 31 [] [1]

set_option maxRecDepth 40000 in
/-- Non-trivial case of `C102_fork_idle`. -/
example : ∃ s es, Idle (pipeline (Pipe.Pipe.ofList [1, 2] .unlimited [.fork 2 (2 * ·)]) true num num_inj whoNum) 7
    (begin (Pipe.Pipe.ofList [1, 2] .unlimited [.fork 2 (2 * ·)])) forkTurns s es ∧ s.obj.ps .consumer = .consumer [2, 4] true :=
  ⟨_, _, idle_pipe _ rfl rfl (by decide), rfl⟩

end
end Verif.Compose
