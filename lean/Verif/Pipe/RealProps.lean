import Verif.Pipe.RealStep
import Verif.Monitor.FullObjs

/-! # Pipelines over the real channels: what the user sees (C97) -/

namespace Verif.Real
open Monitor

variable {α : Type} {P : Pipe.Pipe α} {it : Bool} {tid : Who → Tid} {inj : ∀ a b, tid a = tid b → a = b}

theorem r_init : R P it tid (Sys.initA (start P) fun _ => Chan.Ch.init) P.init := by
  refine ⟨?_, ?_, ?_, pi_init P, ?_⟩
  · intro j; simp [Sys.initA, Abs.init, Chan.Ch.init, Agree, Pipe.Pipe.init]
  · intro w
    simp only [view, Sys.initA]
    cases w with
    | src => rfl
    | consumer => rfl
    | stage i =>
      simp only [start, locs, Pipe.Pipe.init]
      cases P.stages[i]? <;> rfl
    | worker i u =>
      simp only [start, locs, Pipe.Pipe.init]
      cases hg : P.stages[i]? with
      | none => rfl
      | some g =>
        cases g <;> simp only [Pipe.Stage.start]
        case fork n f =>
          simp only [List.getD, List.getElem?_replicate]
          split <;> rfl
        case take n => by_cases hn : n = 0 <;> simp [hn]
        case group n f => by_cases hn : n = 0 <;> simp [hn]
  · intro w j h hi; simp [Sys.initA] at hi
  · intro j; exact Abs.wf_init _

/-- Proof device: executions with atomic critical sections. -/
theorem sim_runs : ∀ (bs : List (Who × Bool)) (c c' : Atomic α) (es : List (Nat × Ev (Chan.Op α) (Chan.Res α) (Chan.Lin α)))
    (s : Pipe.State α), R P it tid c s → runs (Sys.step (absM (chans P)) (prog P it tid inj)) c bs = some (c', es) →
    (∃ as s' tr, runs P.step s as = some (s', tr) ∧ R P it tid c' s') ∧ ∀ e ∈ es, Good tid e := by
  intro bs
  induction bs with
  | nil =>
    intro c c' es s hR h
    simp only [runs, Option.some.injEq, Prod.mk.injEq] at h
    obtain ⟨rfl, rfl⟩ := h
    exact ⟨⟨[], s, [], rfl, hR⟩, by simp⟩
  | cons b bs ih =>
    intro c c' es s hR h
    obtain ⟨c1, e1, e2, h1, h2, rfl⟩ := runs_cons h
    obtain ⟨w, b⟩ := b
    obtain ⟨hs, hg⟩ := sim_step hR h1
    have hgood : (∀ e ∈ e2, Good tid e) → ∀ e ∈ e1 ++ e2, Good tid e := by
      intro h e he
      rcases List.mem_append.1 he with he | he
      · exact hg e he
      · exact h e he
    rcases hs with hq | ⟨a, s1, t1, hx, hR1⟩
    · obtain ⟨h3, h4⟩ := ih c1 c' e2 s hq.1 h2
      exact ⟨h3, hgood h4⟩
    · obtain ⟨⟨as, s', tr, h3, h5⟩, h4⟩ := ih c1 c' e2 s1 hR1 h2
      exact ⟨⟨a :: as, s', t1 ++ tr, by simp only [runs, hx, h3], h5⟩, hgood h4⟩

/-- An execution of the pipeline with every step of every mutex and condition variable. (Concerns co_pipeline.h:65-352.) -/
def Exec (P : Pipe.Pipe α) (it : Bool) (tid : Who → Tid) (inj : ∀ a b, tid a = tid b → a = b) (as : List (Who × Bool)) (c : Full α)
    (es : List (Nat × Ev (Chan.Op α) (Chan.Res α) (Chan.Lin α))) : Prop :=
  runs (Sys.step (fullM (chans P)) (prog P it tid inj)) (Sys.initF (start P) fun _ => Chan.Ch.init) as = some (c, es)

theorem reach {as : List (Who × Bool)} {c : Full α} {es : List (Nat × Ev (Chan.Op α) (Chan.Res α) (Chan.Lin α))}
    (h : Exec P it tid inj as c es) :
    (∃ bs s tr, runs P.step P.init bs = some (s, tr) ∧ R P it tid c.abs s) ∧ ∀ e ∈ es, Good tid e := by
  obtain ⟨bs, hb⟩ := C22_programs _ _ _ _ as c es h
  exact sim_runs bs _ _ _ _ r_init hb

/-! ## Safety -/

/-- What the consumer has is what it has got in the other machine, possibly without the value it is just getting. -/
theorem consumer_view {c : Atomic α} {s : Pipe.State α} (hR : R P it tid c s) :
    ∃ out eof, c.ps .consumer = .consumer out eof ∧ out <+: (s.ch P.stages.length).got ∧
      (eof = true → s.eof = true ∧ out = (s.ch P.stages.length).got) := by
  have hv := hR.view .consumer
  simp only [view, locs] at hv
  cases hi : c.inside .consumer with
  | none =>
    simp only [hi] at hv
    exact ⟨_, _, hv, List.prefix_rfl, fun h => ⟨h, rfl⟩⟩
  | some q =>
    obtain ⟨j, h⟩ := q
    simp only [hi] at hv
    obtain ⟨k, ho, hph⟩ := hR.calls _ _ _ hi
    cases hl : c.ps .consumer with
    | consumer out eof =>
      rw [hl] at ho
      simp only [own] at ho
      cases eof with
      | true => simp at ho
      | false =>
        refine ⟨out, false, rfl, ?_, by simp⟩
        simp only [Bool.false_eq_true, if_false, Next.call.injEq] at ho
        obtain ⟨-, -, rfl⟩ := ho
        have key : ∀ r : Chan.Res α, (match answer r with
            | some v => Loc.consumer (out ++ [v]) false
            | none => .consumer out true) = .consumer (s.ch P.stages.length).got s.eof → out <+: (s.ch P.stages.length).got := by
          intro r hr
          cases hx : answer r with
          | none => simp only [hx, Loc.consumer.injEq] at hr; rw [hr.1]; exact List.prefix_rfl
          | some v => simp only [hx, Loc.consumer.injEq] at hr; rw [← hr.1]; exact List.prefix_append _ _
        have key' : c.ps .consumer = .consumer (s.ch P.stages.length).got s.eof → out <+: (s.ch P.stages.length).got := by
          rw [hl]; intro hh; simp only [Loc.consumer.injEq] at hh; rw [hh.1]; exact List.prefix_rfl
        have hwait : waiting (c.ps .consumer) = c.ps .consumer := by rw [hl]; rfl
        cases hth : (c.obs j).th (tid .consumer) with
        | idle => rw [hth] at hv; exact key' hv
        | leaving r => rw [hth] at hv; exact key r hv
        | ready k =>
          rw [hth] at hv
          cases k <;> simp only [pview] at hv
          case nextC o => exact key _ hv
          case nextE o => exact key _ hv
          case syncW => rw [hwait] at hv; exact key' hv
          all_goals exact key' hv
        | parked q k =>
          rw [hth] at hv
          cases k <;> simp only [pview] at hv
          case nextC o => exact key _ hv
          case nextE o => exact key _ hv
          case syncW => rw [hwait] at hv; exact key' hv
          all_goals exact key' hv
    | _ => rw [hl] at ho; simp [own] at ho

/-- **C97, no undefined behaviour**: no loop over a channel of the pipeline is entered with an empty `optional`. -/
theorem C97_no_null {as : List (Who × Bool)} {c : Full α} {es : List (Nat × Ev (Chan.Op α) (Chan.Res α) (Chan.Lin α))}
    (h : Exec P it tid inj as c es) (j : Nat) (t : Tid) : (j, .ret t .nullDeref) ∉ es :=
  fun hm => (reach h).2 _ hm rfl

/-- The source is where it is in the other machine, up to the push it is in. -/
theorem src_view {c : Atomic α} {s : Pipe.State α} (hR : R P it tid c s) : ∃ p, c.ps .src = .src s.k p := by
  have hv := hR.view .src
  simp only [view, locs] at hv
  cases hi : c.inside .src with
  | none => simp only [hi] at hv; exact ⟨_, hv⟩
  | some q =>
    obtain ⟨j, h⟩ := q
    simp only [hi] at hv
    obtain ⟨k, ho, hph⟩ := hR.calls _ _ _ hi
    cases hl : c.ps .src with
    | src m p =>
      have hh : ∀ r, ∃ p', h r = .src m p' := by
        rw [hl] at ho
        cases p <;> simp only [own] at ho
        case gen => split at ho <;> cases ho
        case put v => cases ho; intro r; exact ⟨_, rfl⟩
        case close => cases ho; intro r; exact ⟨_, rfl⟩
        all_goals cases ho
      have : ∃ p', pview (c.ps .src) h ((c.obs j).th (tid .src)) = .src m p' := by
        cases (c.obs j).th (tid .src) with
        | idle => exact ⟨p, hl⟩
        | leaving r => exact hh r
        | ready k =>
          cases k <;> simp only [pview]
          case nextC o => exact hh _
          case nextE o => exact hh _
          case syncW => rw [hl]; exact ⟨_, rfl⟩
          all_goals exact ⟨_, hl⟩
        | parked q k =>
          cases k <;> simp only [pview]
          case nextC o => exact hh _
          case nextE o => exact hh _
          case syncW => rw [hl]; exact ⟨_, rfl⟩
          all_goals exact ⟨_, hl⟩
      obtain ⟨p', hp'⟩ := this
      rw [hp'] at hv
      cases hv
      exact ⟨p, rfl⟩
    | _ => rw [hl] at ho; simp [own] at ho

/-- **C97, any source and any stages, `fork` included**: whatever part `X` of its items the source has been asked for so far, the consumer
has a beginning of a result for `X`, and all of it if its loop has ended. -/
theorem C97_any_source (hok : ∀ g ∈ P.stages, g.Ok) {as : List (Who × Bool)} {c : Full α}
    {es : List (Nat × Ev (Chan.Op α) (Chan.Res α) (Chan.Lin α))} (h : Exec P it tid inj as c es) {X : List α}
    (hX : ∀ j < X.length, P.src j = X[j]?) (hk : ∀ k p, c.ps .src = .src k p → k ≤ X.length) :
    ∃ out eof Y, c.ps .consumer = .consumer out eof ∧ Pipe.Dens P.stages X Y ∧ out <+: Y ∧ (eof = true → out = Y) := by
  obtain ⟨⟨bs, s, tr, hr, hR⟩, _⟩ := reach h
  obtain ⟨out, eof, h1, h2, h3⟩ := consumer_view hR
  obtain ⟨p, hp⟩ := src_view hR
  obtain ⟨Y, k1, k2, k3⟩ := Pipe.C40_any_source hok hr hX (hk _ _ hp)
  have hH := Pipe.hist_runs hr
  refine ⟨out, eof, Y, h1, k1, ?_, ?_⟩
  · exact h2.trans (hH.outs ▸ k2)
  · intro he
    obtain ⟨e1, e2⟩ := h3 he
    rw [e2, ← hH.outs]; exact k3 (hH.eof.2 e1)

/-- **C97, lists**: for every list, every size of the source's channel, all stages and every schedule of every step of every coroutine,
mutex and condition variable, what the consumer has collected is a beginning of the value of the list functions, and exactly their value
when its loop is over. -/
theorem C97_delivers {l : List α} {kd : Pipe.Kind} {gs : List (Pipe.Stage α)} (hf : ∀ g ∈ gs, g.isFork = false)
    (hg : ∀ n f, Pipe.Stage.group n f ∈ gs → 0 < n) {as : List (Who × Bool)} {c : Full α}
    {es : List (Nat × Ev (Chan.Op α) (Chan.Res α) (Chan.Lin α))} (h : Exec (Pipe.Pipe.ofList l kd gs) it tid inj as c es) :
    ∃ out eof, c.ps .consumer = .consumer out eof ∧ out <+: gs.foldl (fun l g => g.fn l) l ∧
      (eof = true → out = gs.foldl (fun l g => g.fn l) l) := by
  obtain ⟨⟨bs, s, tr, hr, hR⟩, _⟩ := reach h
  obtain ⟨out, eof, h1, h2, h3⟩ := consumer_view hR
  obtain ⟨k2, k3⟩ := Pipe.C40_delivers hf hg hr
  have hH := Pipe.hist_runs hr
  refine ⟨out, eof, h1, h2.trans (hH.outs ▸ k2), ?_⟩
  intro he
  obtain ⟨e1, e2⟩ := h3 he
  rw [e2, ← k3 (hH.eof.2 e1), hH.outs]

/-! ## Progress -/

/-- Proof device: the source never is in its second wait outside `push`. -/
theorem nowait {as : List (Who × Bool)} {c : Atomic α} {es : List (Nat × Ev (Chan.Op α) (Chan.Res α) (Chan.Lin α))}
    (h : runs (Sys.step (absM (chans P)) (prog P it tid inj)) (Sys.initA (start P) fun _ => Chan.Ch.init) as = some (c, es)) :
    ∀ k, c.ps .src ≠ .src k .wait := by
  have hown : ∀ l, (∀ m, own P it .src l = .go m → ∀ k, m ≠ .src k .wait) ∧
      ∀ j k h, own P it .src l = .call j k h → ∀ r m, h r ≠ .src m .wait := by
    intro l
    cases l with
    | src k p =>
      cases p <;> simp only [own]
      case gen => split <;> simp
      case put v =>
        refine ⟨by simp, ?_⟩
        intro j k h hh r m
        cases hh
        simp only [ne_eq, Loc.src.injEq, not_and]
        intro _; split <;> simp
      case close =>
        refine ⟨by simp, ?_⟩
        intro j k h hh r m
        cases hh
        simp
      all_goals simp
    | _ => simp [own]
  refine (runs_inv (fun c : Atomic α => (∃ s, R P it tid c s) ∧ ∀ k, c.ps .src ≠ .src k .wait) ?_ as _ _ _
    ⟨⟨_, r_init⟩, by simp [Sys.initA, start]⟩ h).2
  rintro c ⟨w, b⟩ c' es ⟨⟨s, hR⟩, hn⟩ hs
  refine ⟨?_, ?_⟩
  · rcases (sim_step hR hs).1 with hq | ⟨_, s', _, _, h⟩
    · exact ⟨s, hq.1⟩
    · exact ⟨s', h⟩
  · simp only [Sys.step] at hs
    cases hin : c.inside w with
    | none =>
      rw [hin] at hs
      simp only at hs
      cases hx : (prog P it tid inj).next w c.ps with
      | stop => rw [hx] at hs; cases hs
      | go l =>
        rw [hx] at hs; cases hs
        by_cases hw : w = .src
        · subst hw
          simp only [setC_same]
          exact (hown _).1 l hx
        · simp only [setC_other _ _ (Ne.symm hw)]; exact hn
      | call j k g =>
        rw [hx] at hs
        simp only [Option.map_eq_some_iff] at hs
        obtain ⟨_, _, hs⟩ := hs
        cases hs
        exact hn
    | some q =>
      obtain ⟨j, g⟩ := q
      obtain ⟨k, ho, _⟩ := hR.calls w j g hin
      rw [hin] at hs
      simp only [Option.map_eq_some_iff] at hs
      obtain ⟨r, _, hs⟩ := hs
      split at hs
      · cases hs; exact hn
      · rename_i v _
        cases hs
        by_cases hw : w = .src
        · subst hw
          simp only [setC_same]
          exact (hown _).2 j k g ho v
        · simp only [setC_other _ _ (Ne.symm hw)]; exact hn

/-- Proof device: what a coroutine waits for when nobody can make a step. (Concerns co_pipeline.h:65-352.) -/
def Blocked (P : Pipe.Pipe α) (it : Bool) (s : Pipe.State α) (l : Loc α) (w : Who) : Prop :=
  ∃ j k h, own P it w l = .call j k h ∧
    ((locs P s w = l ∧ (k = .pop ∨ k = .next) ∧ (s.ch j).data = [] ∧ (s.ch j).st = .opened) ∨
     (locs P s w = l ∧ ∃ v n, k = .push v ∧ j = 0 ∧ P.kind = .fixed n ∧ (s.ch 0).data.length = n ∧ (s.ch 0).st = .opened) ∨
     (w = .src ∧ locs P s w = waiting l ∧ (s.ch 0).data ≠ [] ∧ (s.ch 0).st = .opened))

theorem evs_mem {j : Nat} {e : Ev (Chan.Op α) (Chan.Res α) (Chan.Lin α)} : ∀ {es : List (Nat × Ev (Chan.Op α) (Chan.Res α) (Chan.Lin α))},
    e ∈ evs j es → (j, e) ∈ es := by
  intro es
  induction es with
  | nil => simp [evs]
  | cons x es ih =>
    obtain ⟨i, y⟩ := x
    simp only [evs]
    split
    · rename_i h; subst h
      intro he
      rcases List.mem_cons.1 he with rfl | he
      · simp
      · exact List.mem_cons_of_mem _ (ih he)
    · intro he; exact List.mem_cons_of_mem _ (ih he)

theorem blocked {as : List (Who × Bool)} {c : Full α} {es : List (Nat × Ev (Chan.Op α) (Chan.Res α) (Chan.Lin α))}
    (h : Exec P it tid inj as c es) (hst : ∀ a, c.step (fullM (chans P)) (prog P it tid inj) a = none) {s : Pipe.State α}
    (hR : R P it tid c.abs s) (hg : ∀ e ∈ es, Good tid e) (w : Who) :
    (c.inside w = none ∧ c.ps w = locs P s w ∧ (prog P it tid inj).next w c.ps = .stop) ∨ Blocked P it s (c.ps w) w := by
  obtain ⟨hall, hmx, hw⟩ := C22_programs_stuck _ _ _ _ as c es h hst
  have hw := hw w
  have hv := hR.view w
  cases hi : c.inside w with
  | none =>
    rw [hi] at hw
    left
    refine ⟨rfl, ?_, hw⟩
    rw [← hv]; simp only [view]; rw [show c.abs.inside w = none from hi]; rfl
  | some q =>
    obtain ⟨j, g⟩ := q
    rw [hi] at hw
    right
    obtain ⟨q, k, hpc, hth, _⟩ := hw
    obtain ⟨k0, ho, hph⟩ := hR.calls w j g hi
    have hab : (c.abs.obs j).th (tid w) = .parked q k := hth
    have hag := hR.ch j
    have hsh : (c.abs.obs j).sh = (c.obs j).low.sh := rfl
    rw [hsh] at hag
    rw [hab] at hph
    simp only [view] at hv
    rw [show c.abs.inside w = some (j, g) from hi] at hv
    simp only [hab] at hv
    obtain ⟨bs, hb⟩ := Sys.obj_runs j as _ c es h
    have hcl : Chan.Client (evs j es) := by
      intro t k hm
      exact (hg _ (evs_mem hm)).1
    have hpc : (c.obs j).low.pc (tid w) = .pYield q k := hpc
    refine ⟨j, k0, g, ho, ?_⟩
    have hread : (k0 = .pop ∨ k0 = .next) → (k = .popW ∨ k = .nextW) → (c.obs j).low.sh = ⟨[], false⟩ →
        locs P s w = c.ps w ∧ (k0 = .pop ∨ k0 = .next) ∧ (s.ch j).data = [] ∧ (s.ch j).st = .opened := by
      intro h1 h2 h3
      rw [h3] at hag
      refine ⟨?_, h1, hag.1.symm, agree_open hag rfl⟩
      rw [← hv]; rcases h2 with rfl | rfl <;> rfl
    by_cases hk : kindAt P j = .sync
    · have hj : j = 0 := by
        by_cases hj : j = 0
        · exact hj
        · simp [kindAt, hj] at hk
      have hstuck := full_stuck (o := chans P j) hb (fun t b => hall j t b)
      obtain ⟨_, cs, hcs⟩ := Full.sim_init hb
      have hob : chans P j = Chan.obj .sync := by rw [chans, hk]
      rw [hob] at hcs hstuck
      have := Chan.C38_single_producer_partial (tid .src) cs _ _ hcs hcl (by
        intro t v hm
        exact (hg _ (evs_mem hm)).2 v rfl hj) hstuck (tid w) (by rw [hpc]; simp)
      rcases this with ⟨h1, h2⟩ | ⟨h1, h2, h3, h4, _⟩
      · left
        rw [hpc] at h1
        simp only [Pc.pYield.injEq] at h1
        have hkk : k = .popW ∨ k = .nextW := h1.imp And.right And.right
        refine hread ?_ hkk h2
        rcases own_op ho with ⟨v, rfl⟩ | rfl | rfl | rfl
        · rcases hkk with rfl | rfl <;> simp [Phase] at hph
        · exact .inl rfl
        · exact .inr rfl
        · rcases hkk with rfl | rfl <;> simp [Phase] at hph
      · right; right
        have hws := inj _ _ h1
        subst hws
        rw [hpc] at h2
        simp only [Pc.pYield.injEq] at h2
        obtain ⟨rfl, rfl⟩ := h2
        rw [hj] at hag h3 h4
        refine ⟨rfl, ?_, ?_, agree_open hag h4⟩
        · rw [← hv]; rfl
        · rw [← hag.1]; exact h3
    · have hh := (C37_channel_real_mutex (kindAt P j) bs (c.obs j) (evs j es) hb hcl).2.2.2.1 hk (fun t b => hall j t b) (tid w)
      rw [hpc] at hh
      rcases hh with hh | ⟨h1, h2⟩ | ⟨n, v, h1, h2, h3, h4⟩
      · cases hh
      · left
        simp only [Pc.pYield.injEq] at h1
        have hkk : k = .popW ∨ k = .nextW := h1.imp And.right And.right
        refine hread ?_ hkk h2
        rcases own_op ho with ⟨v, rfl⟩ | rfl | rfl | rfl
        · rcases hkk with rfl | rfl <;> simp [Phase] at hph
        · exact .inl rfl
        · exact .inr rfl
        · rcases hkk with rfl | rfl <;> simp [Phase] at hph
      · right; left
        simp only [Pc.pYield.injEq] at h2
        obtain ⟨rfl, rfl⟩ := h2
        have hj : j = 0 := by
          by_cases hj : j = 0
          · exact hj
          · simp [kindAt, hj] at h1
        have hpk : P.kind = .fixed n := by
          simp only [kindAt, hj, if_true] at h1
          cases hk : P.kind <;> simp [hk, kindOf] at h1
          rw [h1]
        have hk0 : k0 = .push v := by
          rcases own_op ho with ⟨u, rfl⟩ | rfl | rfl | rfl
          · rcases hph with hp | ⟨m, _, hp | hp⟩ | ⟨_, hp | hp⟩ | ⟨b, hp⟩ <;> cases hp
            rfl
          · simp [Phase] at hph
          · simp [Phase] at hph
          · simp [Phase] at hph
        refine ⟨by rw [← hv]; rfl, v, n, hk0, hj, hpk, ?_, ?_⟩
        · rw [← h3, hag.1, hj]
        · rw [← hj]; exact agree_open hag h4

theorem cmd_any {g : Pipe.Stage α} {p : Pipe.Pc α} (h : ∀ ws, p ≠ .join ws) (w : Nat) : g.cmd w p = g.cmd 0 p := by
  cases p <;> first | rfl | exact absurd rfl (h _)

/-- When no coroutine of the pipeline can make a step, the other machine has come to an end. -/
theorem stuck {as : List (Who × Bool)} {c : Full α} {es : List (Nat × Ev (Chan.Op α) (Chan.Res α) (Chan.Lin α))}
    (h : Exec P it tid inj as c es) (hst : ∀ a, c.step (fullM (chans P)) (prog P it tid inj) a = none) {s : Pipe.State α}
    (hR : R P it tid c.abs s) (hg : ∀ e ∈ es, Good tid e) : ∀ a, P.step s a = none := by
  have hB := blocked h hst hR hg
  have hnw : ∀ k, c.ps .src ≠ .src k .wait := by
    obtain ⟨bs, hb⟩ := C22_programs _ _ _ _ as c es h
    exact nowait hb
  have hpop : ∀ j, (s.ch j).data = [] → (s.ch j).st = .opened → (s.ch j).pop = none := by
    intro j h1 h2; simp [Pipe.Chan.pop, h1, h2]
  -- a coroutine other than the source waits for a value, if it has a call to make
  have hwait : ∀ w, w ≠ .src → ∀ j k f, own P it w (locs P s w) = .call j k f →
      (k = .pop ∨ k = .next) ∧ (s.ch j).data = [] ∧ (s.ch j).st = .opened := by
    intro w hw j k f ho
    rcases hB w with ⟨_, h1, h2⟩ | ⟨j', k', f', h1, ⟨h2, h3, h4, h5⟩ | ⟨h2, v, n, h3, h4, _⟩ | ⟨h2, _⟩⟩
    · exfalso
      have : own P it w (c.ps w) = .stop := by
        cases w <;> simp only [prog] at h2
        case stage i =>
          split at h2
          · cases h2
          · exact h2
        all_goals exact h2
      rw [h1, ho] at this; cases this
    · rw [h2, h1] at ho; cases ho; exact ⟨h3, h4, h5⟩
    · subst h3; exact absurd ((push_src h1).1.2 h4) hw
    · exact absurd h2 hw
  intro a
  cases a with
  | src =>
    have hl : locs P s .src = .src s.k s.spc := rfl
    rcases hB .src with ⟨_, h1, h2⟩ | ⟨j, k, f, h1, ⟨h2, h3, h4, h5⟩ | ⟨h2, v, n, h3, h4, h5, h6, h7⟩ | ⟨_, h2, h3, h4⟩⟩
    · have h2 : own P it .src (c.ps .src) = .stop := h2
      rw [h1, hl] at h2
      simp only [Pipe.Pipe.step]
      cases hp : s.spc <;> simp only [hp, own] at h2 ⊢
      case gen => split at h2 <;> cases h2
      case put => cases h2
      case wait => rw [hl, hp] at h1; exact absurd h1 (hnw _)
      case close => cases h2
    · exfalso
      rw [← h2, hl] at h1
      simp only [own] at h1
      repeat' split at h1
      all_goals simp only [Next.call.injEq, reduceCtorEq] at h1
      all_goals (obtain ⟨_, rfl, _⟩ := h1; simp at h3)
    · subst h3
      rw [← h2] at h1
      obtain ⟨kk, hq, _⟩ := (push_src h1).2 rfl
      rw [hl] at hq
      simp only [Loc.src.injEq] at hq
      simp only [Pipe.Pipe.step, hq.2, h7, ne_eq, not_true_eq_false, if_false, h5, Pipe.Kind.room, h6]
      simp
    · have hsp : s.spc = .wait := by
        rw [hl] at h2
        cases hc : c.ps .src with
        | src m p => rw [hc] at h2; simp only [waiting, Loc.src.injEq] at h2; exact h2.2
        | _ => rw [hc] at h2; simp [waiting] at h2
      simp only [Pipe.Pipe.step, hsp]
      rw [if_neg]
      simp [h3, h4]
  | pop =>
    simp only [Pipe.Pipe.step]
    cases he : s.eof with
    | true => rfl
    | false =>
      have := hwait .consumer (by simp) P.stages.length (if it then .next else .pop) _ (by
        simp only [locs, own, he, Bool.false_eq_true, if_false]; rfl)
      simp [hpop _ this.2.1 this.2.2]
  | run i w =>
    simp only [Pipe.Pipe.step]
    cases hgs : P.stages[i]? with
    | none => rfl
    | some g =>
      simp only
      by_cases hj : ∃ ws, s.pc i = .join ws
      · obtain ⟨ws, hp⟩ := hj
        obtain ⟨n, f, hgf, hlen⟩ := hR.pi.frk i ws hp
        rw [hgs] at hgf; cases hgf
        rw [hp]
        cases hx : ws[w]? with
        | some x =>
          have hwn : w < n := by rw [← hlen]; exact (List.getElem?_eq_some_iff.1 hx).1
          have hloc : locs P s (.worker i w) = .worker x := by simp [locs, hp, List.getD, hx]
          cases x with
          | get =>
            have := hwait (.worker i w) (by simp) i .pop _ (by rw [hloc]; simp only [own, hgs, hwn, if_true]; rfl)
            simp [Pipe.Stage.cmd, hx, hpop _ this.2.1 this.2.2]
          | put v =>
            have := hwait (.worker i w) (by simp) (i + 1) (.push v) _ (by rw [hloc]; simp only [own, hgs, hwn, if_true]; rfl)
            simp at this
          | done => simp [Pipe.Stage.cmd, hx]
        | none =>
          by_cases hall : ws.all (fun | .done => true | _ => false) = true
          · exfalso
            have hdone : ∀ u, u < n → ended (c.ps (.worker i u)) = true := by
              intro u hu
              have hloc : locs P s (.worker i u) = .worker .done := by
                simp only [locs, hp, Loc.worker.injEq, List.getD]
                rw [List.getElem?_eq_getElem (by omega)]
                have := List.all_eq_true.1 hall ws[u] (List.getElem_mem _)
                cases hy : ws[u] <;> simp_all
              rcases hB (.worker i u) with ⟨_, h1, _⟩ | ⟨j', k', f', h1, ⟨h2, _⟩ | ⟨h2, _⟩ | ⟨h2, _⟩⟩
              · rw [h1, hloc]; rfl
              · rw [← h2, hloc]; rfl
              · rw [← h2, hloc]; rfl
              · cases h2
            have hls : locs P s (.stage i) = .stage (.join []) := by simp [locs, hp, hide]
            rcases hB (.stage i) with ⟨_, h1, h2⟩ | ⟨j', k', f', h1, ⟨h2, _⟩ | ⟨h2, _⟩ | ⟨h2, _⟩⟩
            · have hjd : joined P i c.ps = true := by
                simp only [joined, hgs, h1, hls]
                rw [List.all_eq_true]
                intro u hu
                exact hdone u (by simpa using hu)
              simp [prog, hjd] at h2
            · rw [← h2, hls] at h1; simp [own, joining, hgs] at h1
            · rw [← h2, hls] at h1; simp [own, joining, hgs] at h1
            · cases h2
          · have hcmd : (Pipe.Stage.fork n f).cmd w (.join ws) = .stop := by
              simp only [Pipe.Stage.cmd, hx]
              split
              · rename_i hne; exact absurd hne hall
              · rfl
            simp [hcmd]
      · have hn : ∀ ws, s.pc i ≠ .join ws := fun ws hw => hj ⟨ws, hw⟩
        have hloc : locs P s (.stage i) = .stage (s.pc i) := by simp [locs, hide_of_not hn]
        have hjo : joining (s.pc i) = false := by
          cases hp : s.pc i <;> first | rfl | exact absurd hp (hn _)
        rw [cmd_any hn w]
        cases hc : g.cmd 0 (s.pc i) with
        | stop => rfl
        | pop f =>
          have := hwait (.stage i) (by simp) i (reads g (s.pc i)) _ (by rw [hloc]; simp only [own, hgs, hjo, hc]; rfl)
          simp [hpop _ this.2.1 this.2.2]
        | push v f =>
          have := hwait (.stage i) (by simp) (i + 1) (.push v) _ (by rw [hloc]; simp only [own, hgs, hjo, hc]; rfl)
          simp at this
        | close f =>
          have := hwait (.stage i) (by simp) (i + 1) .close _ (by rw [hloc]; simp only [own, hgs, hjo, hc]; rfl)
          simp at this
        | cut f =>
          have := hwait (.stage i) (by simp) i .close _ (by rw [hloc]; simp only [own, hgs, hjo, hc]; rfl)
          simp at this
        | tau f =>
          exfalso
          cases hp : s.pc i <;> rw [hp] at hc
          case join ws => exact hn ws hp
          all_goals cases g <;> simp [Pipe.Stage.cmd] at hc

/-- The consumer has seen the end, if the other machine's consumer has and nobody can make a step. -/
theorem consumer_stuck {as : List (Who × Bool)} {c : Full α} {es : List (Nat × Ev (Chan.Op α) (Chan.Res α) (Chan.Lin α))}
    (h : Exec P it tid inj as c es) (hst : ∀ a, c.step (fullM (chans P)) (prog P it tid inj) a = none) {s : Pipe.State α}
    (hR : R P it tid c.abs s) (hg : ∀ e ∈ es, Good tid e) (he : s.eof = true) :
    c.inside .consumer = none ∧ c.ps .consumer = .consumer (s.ch P.stages.length).got true := by
  have hl : locs P s .consumer = .consumer (s.ch P.stages.length).got true := by simp [locs, he]
  rcases blocked h hst hR hg .consumer with ⟨h0, h1, _⟩ | ⟨j', k', f', h1, ⟨h2, _⟩ | ⟨h2, _⟩ | ⟨h2, _⟩⟩
  · exact ⟨h0, h1.trans hl⟩
  · rw [← h2, hl] at h1; simp [own] at h1
  · rw [← h2, hl] at h1; simp [own] at h1
  · cases h2

end Verif.Real
