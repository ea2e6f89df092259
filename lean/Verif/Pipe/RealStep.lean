import Verif.Pipe.RealSim

/-! # Pipelines over the real channels: every step -/

namespace Verif.Real
open Monitor

variable {α : Type} {P : Pipe.Pipe α} {it : Bool} {s : Pipe.State α}

/-- Only the source pushes into its channel, and it pushes nowhere else. -/
theorem push_src {w : Who} {l : Loc α} {j : Nat} {v : α} {h : Chan.Res α → Loc α} (ho : own P it w l = .call j (.push v) h) :
    (w = .src ↔ j = 0) ∧ (w = .src → ∃ k, l = .src k (.put v) ∧ h = fun r => .src k (if accepted r then .gen else .close)) := by
  cases w with
  | src =>
    cases l with
    | src k p =>
      cases p <;> simp only [own] at ho
      case gen => split at ho <;> cases ho
      case put => cases ho; exact ⟨by simp, fun _ => ⟨k, rfl, rfl⟩⟩
      all_goals cases ho
    | _ => simp [own] at ho
  | stage i =>
    cases l with
    | stage p =>
      simp only [own] at ho
      repeat' split at ho
      all_goals simp only [Next.call.injEq, reduceCtorEq] at ho
      · obtain ⟨_, h2, _⟩ := ho
        exfalso
        simp only [reads] at h2
        repeat' split at h2
        all_goals cases h2
      · simp; omega
      · exact absurd ho.2.1 (by simp)
      · exact absurd ho.2.1 (by simp)
    | _ => simp [own] at ho
  | worker i u =>
    cases l with
    | worker p =>
      simp only [own] at ho
      repeat' split at ho
      all_goals simp only [Next.call.injEq, reduceCtorEq] at ho
      · exact absurd ho.2.1 (by simp)
      · simp; omega
    | _ => simp [own] at ho
  | consumer =>
    cases l with
    | consumer out eof =>
      simp only [own] at ho
      repeat' split at ho
      all_goals simp only [Next.call.injEq, reduceCtorEq] at ho
      all_goals exact absurd ho.2.1 (by simp)
    | _ => simp [own] at ho

theorem agree_pop {a : Chan.Ch α} {c : Pipe.Chan α} (h : Agree a c) {v : α} {d : List α} (hd : a.data = v :: d) :
    ∃ c', c.pop = some (some v, c') ∧ Agree { a with data := d } c' := by
  refine ⟨{ c with got := c.got ++ [v], data := d }, ?_, rfl, h.2⟩
  simp only [Pipe.Chan.pop, ← h.1, hd]

theorem agree_drained {a : Chan.Ch α} {c : Pipe.Chan α} (h : Agree a c) (hd : a.data = []) (hc : a.closed = true) :
    c.pop = some (none, c) := by
  simp only [Pipe.Chan.pop, ← h.1, hd]
  rw [if_neg (h.2.1 hc)]

theorem agree_open {a : Chan.Ch α} {c : Pipe.Chan α} (h : Agree a c) (hc : a.closed = false) : c.st = .opened := by
  by_cases hst : c.st = .opened
  · exact hst
  · rw [h.2.2 hst] at hc; cases hc

/-- A critical section of a channel, run by `w`. -/
theorem sim_run {tid : Who → Tid} (inj : ∀ a b, tid a = tid b → a = b) {c : Atomic α} (hR : R P it tid c s) {w : Who} {j : Nat}
    {h : Chan.Res α → Loc α} {k : Chan.Op α} (hin : c.inside w = some (j, h)) (hth : (c.obs j).th (tid w) = .ready k)
    {a : Monitor.Abs (Chan.Ch α) Chan.Cv (Chan.Op α) (Chan.Res α)} {es}
    (hs : (c.obs j).step (chans P j) (.run (tid w)) = some (a, es)) :
    Quiet P it tid c { c with obs := upd c.obs j a } s w ∨ Loud P it tid { c with obs := upd c.obs j a } s := by
  obtain ⟨k0, ho, hph⟩ := hR.calls w j h hin
  have hag := hR.ch j
  have hview : pview (c.ps w) h (.ready k) = locs P s w := by
    rw [← hR.view w]; simp only [view, hin, hth]
  rw [hth] at hph
  -- an accepted push
  have hpush : ∀ v, k0 = .push v → locs P s w = c.ps w → (c.obs j).sh.closed = false →
      (j = 0 → P.kind.room (s.ch 0).data.length = true) → ∀ (f : Fin Chan.Cv (Chan.Op α) (Chan.Res α)),
      (chans P j).body (tid w) k (c.obs j).sh = Chan.enter (tid w) v f (c.obs j).sh →
      Phase (kindAt P j) ⟨(c.obs j).sh.data ++ [v], (c.obs j).sh.closed⟩ k0 f.th →
      pview (c.ps w) h f.th = (if w = .src ∧ P.kind = .sync then .src s.k .wait else h (.pushed true)) →
      Loud P it tid { c with obs := upd c.obs j a } s := by
    rintro v rfl hl hcl hroom f hb hpf hpv
    obtain ⟨x, s', ps, h1, h2, h3⟩ := do_push (it := it) (w := w) (h := h) hR.pi.frk (by rw [hl]; exact ho) (agree_open hag hcl) hroom
    refine loud_run inj hR hin ho hth hs hb ?_ hpf h1 h2 ?_ (by rw [Chan.enter, hpv]; exact h3)
    · intro hh; rw [hcl] at hh; cases hh.1
    · exact ⟨by simp [Chan.enter, Pipe.Chan.push, hag.1], by simpa [Chan.enter, Pipe.Chan.push] using hag.2⟩
  -- a refused one
  have hrefuse : ∀ v, k0 = .push v → locs P s w = c.ps w → (c.obs j).sh.closed = true →
      (chans P j).body (tid w) k (c.obs j).sh = ⟨(c.obs j).sh, [.refused (tid w)], [], .ret (.pushed false)⟩ →
      Loud P it tid { c with obs := upd c.obs j a } s := by
    rintro v rfl hl hcl hb
    obtain ⟨x, s', ps, h1, h2, h3⟩ := do_refuse (it := it) (w := w) (h := h) hR.pi.frk (by rw [hl]; exact ho) (hag.2.1 hcl)
    exact loud_run inj hR hin ho hth hs hb id (.inr (.inr (.inr ⟨false, rfl⟩))) h1 (by rw [h2]; exact (upd_id _ _).symm) hag h3
  -- a read
  have hread : ∀ kw (f : Option α → Fin Chan.Cv (Chan.Op α) (Chan.Res α)), (k0 = .pop ∨ k0 = .next) → locs P s w = c.ps w →
      (chans P j).body (tid w) k (c.obs j).sh = Chan.popBody (tid w) kw f (c.obs j).sh →
      Phase (kindAt P j) (c.obs j).sh k0 (.parked .empty kw) → tw (.parked .empty kw : Th _ _ (Chan.Res α)) < tw (.ready k : Th Chan.Cv _ (Chan.Res α)) →
      pview (c.ps w) h (.parked .empty kw) = pview (c.ps w) h (.ready k) →
      (∀ o sh, (o = none → sh.closed = true ∧ sh.data = []) → Phase (kindAt P j) sh k0 (f o).th) →
      (∀ o, ∃ r, answer r = o ∧ pview (c.ps w) h (f o).th = h r) →
      Quiet P it tid c { c with obs := upd c.obs j a } s w ∨ Loud P it tid { c with obs := upd c.obs j a } s := by
    intro kw f hk0 hl hb hpp htw hpv hpf hans
    have hown : own P it w (locs P s w) = .call j k0 h := by rw [hl]; exact ho
    cases hd : (c.obs j).sh.data with
    | nil =>
      cases hcl : (c.obs j).sh.closed with
      | false =>
        left
        exact quiet_run inj hR hin ho hth hs (f := .park .empty kw) (by rw [hb]; simp [Chan.popBody, hd, hcl]) hpp hpv htw
      | true =>
        right
        obtain ⟨x, s', ps, h1, h2, h3⟩ := do_pop (it := it) (w := w) (h := h) hR.pi.frk hown hk0 (agree_drained hag hd hcl)
        obtain ⟨r, hr1, hr2⟩ := hans none
        refine loud_run inj hR hin ho hth hs (r := ⟨(c.obs j).sh, [.drained (tid w)], [], f none⟩)
          (by rw [hb]; simp [Chan.popBody, hd, hcl]) id (hpf _ _ fun _ => ⟨hcl, hd⟩) h1 h2 hag ?_
        simp only [hr2]; exact h3 r hr1
    | cons v d =>
      right
      obtain ⟨c', hp, hag'⟩ := agree_pop hag hd
      obtain ⟨x, s', ps, h1, h2, h3⟩ := do_pop (it := it) (w := w) (h := h) hR.pi.frk hown hk0 hp
      obtain ⟨r, hr1, hr2⟩ := hans (some v)
      refine loud_run inj hR hin ho hth hs (r := ⟨{ (c.obs j).sh with data := d }, [.got (tid w) v], [.one .full], f (some v)⟩)
        (by rw [hb]; simp [Chan.popBody, hd]) ?_ (hpf _ _ fun hh => by cases hh) h1 h2 hag' ?_
      · intro hh; rw [hd] at hh; cases hh.2
      · simp only [hr2]; exact h3 r hr1
  cases k0 <;> simp only [Phase] at hph
  case push v =>
    obtain ⟨hsrc, hsrc'⟩ := push_src ho
    rcases hph with hk | ⟨n, hn, hk | hk⟩ | ⟨hn, hk | hk⟩ | ⟨b, hk⟩ <;> cases hk
    · -- the beginning
      have hl : locs P s w = c.ps w := by rw [← hview]; rfl
      cases hcl : (c.obs j).sh.closed with
      | true => exact .inr (hrefuse v rfl hl hcl (by simp [chans, Chan.obj, hcl]))
      | false =>
        cases hkd : kindAt P j with
        | unlimited =>
          right
          have hns : ¬ (w = .src ∧ P.kind = .sync) := by
            rintro ⟨h1, h2⟩
            simp [kindAt, hsrc.1 h1, h2, kindOf] at hkd
          refine hpush v rfl hl hcl ?_ (.ret (.pushed true)) (by simp [chans, Chan.obj, hcl, hkd])
            (.inr (.inr (.inr ⟨true, rfl⟩))) ?_
          · intro hj
            subst hj
            simp only [kindAt, if_true] at hkd
            cases hk : P.kind <;> simp [hk, kindOf] at hkd
            rfl
          · rw [if_neg hns]; rfl
        | fixed n =>
          have hj : j = 0 := by
            by_cases hj : j = 0
            · exact hj
            · simp [kindAt, hj] at hkd
          have hpk : P.kind = .fixed n := by
            simp only [kindAt, hj, if_true] at hkd
            cases hk : P.kind <;> simp [hk, kindOf] at hkd
            rw [hkd]
          by_cases hlen : (c.obs j).sh.data.length = n
          · left
            refine quiet_run inj hR hin ho hth hs (f := .park .full (.pushW v)) (by simp [chans, Chan.obj, hcl, hkd, hlen])
              (.inr (.inl ⟨n, hkd, .inr rfl⟩)) rfl (by simp [tw, Fin.th])
          · right
            refine hpush v rfl hl hcl ?_ (.ret (.pushed true)) (by simp [chans, Chan.obj, hcl, hkd, hlen])
              (.inr (.inr (.inr ⟨true, rfl⟩))) ?_
            · intro _
              have h1 := hR.pi.cap n hpk
              have h2 := hag.1
              rw [hj] at h2 hlen
              rw [h2] at hlen
              simp [hpk, Pipe.Kind.room]; omega
            · rw [if_neg (by simp [hpk])]; rfl
        | sync =>
          have hj : j = 0 := by
            by_cases hj : j = 0
            · exact hj
            · simp [kindAt, hj] at hkd
          have hpk : P.kind = .sync := by
            simp only [kindAt, hj, if_true] at hkd
            cases hk : P.kind <;> simp [hk, kindOf] at hkd
            rfl
          have hw := hsrc.2 hj
          obtain ⟨kk, hps, hh⟩ := hsrc' hw
          have hspc : s.k = kk ∧ s.spc = .put v := by
            rw [hw] at hl; rw [hw] at hps
            rw [hps] at hl
            simpa [locs] using hl
          have hemp : (s.ch 0).data = [] := by
            by_cases he : (s.ch 0).data = []
            · exact he
            · have := hR.pi.sync hpk (agree_open (hR.ch 0) (by rw [← hj]; exact hcl)) he
              rw [hspc.2] at this; cases this
          have hlen : (c.obs j).sh.data.length ≠ 1 := by rw [hag.1, hj, hemp]; simp
          right
          refine hpush v rfl hl hcl ?_ (.park .full .syncW) (by simp [chans, Chan.obj, hcl, hkd, hlen])
            (.inr (.inr (.inl ⟨hkd, .inr rfl⟩))) ?_
          · intro _; simp [hpk, Pipe.Kind.room, hemp]
          · rw [if_pos ⟨hw, hpk⟩]
            simp [pview, Fin.th, hps, waiting, hspc.1]
    · -- woken in the first wait
      have hl : locs P s w = c.ps w := by rw [← hview]; rfl
      have hj : j = 0 := by
        by_cases hj : j = 0
        · exact hj
        · simp [kindAt, hj] at hn
      have hpk : P.kind = .fixed n := by
        simp only [kindAt, hj, if_true] at hn
        cases hk : P.kind <;> simp [hk, kindOf] at hn
        rw [hn]
      cases hcl : (c.obs j).sh.closed with
      | true => exact .inr (hrefuse v rfl hl hcl (by simp [chans, Chan.obj, hcl, hn]))
      | false =>
        by_cases hlen : (c.obs j).sh.data.length < n
        · right
          refine hpush v rfl hl hcl ?_ (.ret (.pushed true)) (by simp [chans, Chan.obj, hcl, hn, hlen])
            (.inr (.inr (.inr ⟨true, rfl⟩))) ?_
          · intro _
            have h2 := hag.1
            rw [hj] at h2 hlen
            rw [h2] at hlen
            simp [hpk, Pipe.Kind.room]; omega
          · rw [if_neg (by simp [hpk])]; rfl
        · left
          refine quiet_run inj hR hin ho hth hs (f := .park .full (.pushW v)) (by simp [chans, Chan.obj, hcl, hn, hlen])
            (.inr (.inl ⟨n, hn, .inr rfl⟩)) rfl (by simp [tw, Fin.th])
    · -- woken in the second wait
      have hj : j = 0 := by
        by_cases hj : j = 0
        · exact hj
        · simp [kindAt, hj] at hn
      have hw := hsrc.2 hj
      obtain ⟨kk, hps, hh⟩ := hsrc' hw
      have hspc : kk = s.k ∧ s.spc = .wait := by
        rw [hps] at hview
        rw [hw] at hview
        simp only [pview, waiting, locs, Loc.src.injEq] at hview
        exact ⟨hview.1, hview.2.symm⟩
      by_cases hc : (c.obs j).sh.closed = true ∨ (c.obs j).sh.data = []
      · right
        obtain ⟨x, s', ps, h1, h2, h3⟩ := do_wait (P := P) hspc.2 (by
          rw [hj] at hag hc
          rcases hc with hc | hc
          · exact .inl (hag.2.1 hc)
          · exact .inr (hag.1 ▸ hc))
        refine loud_run inj hR hin ho hth hs (r := ⟨(c.obs j).sh, [], [], .ret (.pushed true)⟩)
          (by simp only [chans, Chan.obj, if_pos hc]) id (.inr (.inr (.inr ⟨true, rfl⟩))) h1
          (by rw [h2]; exact (upd_id _ _).symm) hag ?_
        rw [hw]
        have : h (.pushed true) = .src s.k .gen := by rw [hh, hspc.1]; rfl
        simp only [pview, Fin.th, this]; exact h3
      · left
        refine quiet_run inj hR hin ho hth hs (f := .park .full .syncW) (by simp only [chans, Chan.obj, if_neg hc])
          (.inr (.inr (.inl ⟨hn, .inr rfl⟩))) rfl (by simp [tw, Fin.th])
  case pop =>
    rcases hph with hk | hk | hk | ⟨o, hk⟩ <;> cases hk
    · exact hread .popW (fun o => .ret (.popped o)) (.inl rfl) (by rw [← hview]; rfl) rfl (.inr (.inr (.inl rfl))) (by simp [tw]) rfl
        (fun o _ _ => .inr (.inr (.inr ⟨o, rfl⟩))) (fun o => ⟨.popped o, rfl, rfl⟩)
    · exact hread .popW (fun o => .ret (.popped o)) (.inl rfl) (by rw [← hview]; rfl) rfl (.inr (.inr (.inl rfl))) (by simp [tw]) rfl
        (fun o _ _ => .inr (.inr (.inr ⟨o, rfl⟩))) (fun o => ⟨.popped o, rfl, rfl⟩)
  case next =>
    have hans : ∀ o : Option α, answer (ans o) = o := by intro o; cases o <;> rfl
    rcases hph with hk | hk | hk | ⟨o, hk | hk, hd⟩ | ⟨v, hk⟩ | hk <;> cases hk
    · exact hread .nextW (fun o => .next (.nextC o)) (.inr rfl) (by rw [← hview]; rfl) rfl (.inr (.inr (.inl rfl))) (by simp [tw]) rfl
        (fun o _ hh => .inr (.inr (.inr (.inl ⟨o, .inl rfl, hh⟩)))) (fun o => ⟨ans o, hans o, rfl⟩)
    · exact hread .nextW (fun o => .next (.nextC o)) (.inr rfl) (by rw [← hview]; rfl) rfl (.inr (.inr (.inl rfl))) (by simp [tw]) rfl
        (fun o _ hh => .inr (.inr (.inr (.inl ⟨o, .inl rfl, hh⟩)))) (fun o => ⟨ans o, hans o, rfl⟩)
    · left
      cases hcl : (c.obs j).sh.closed with
      | true =>
        exact quiet_run inj hR hin ho hth hs (f := .next (.nextE o)) (by simp [chans, Chan.obj, hcl])
          (.inr (.inr (.inr (.inl ⟨o, .inr rfl, hd⟩)))) rfl (by simp [tw, Fin.th])
      | false =>
        cases o with
        | none => have := (hd rfl).1; rw [hcl] at this; cases this
        | some v =>
          exact quiet_run inj hR hin ho hth hs (f := .ret (.item v)) (by simp [chans, Chan.obj, hcl, Chan.enterLoop])
            (.inr (.inr (.inr (.inr (.inl ⟨v, rfl⟩))))) rfl (by simp [tw, Fin.th])
    · left
      cases o with
      | none =>
        exact quiet_run inj hR hin ho hth hs (f := .ret .stop) (by simp [chans, Chan.obj, (hd rfl).2])
          (.inr (.inr (.inr (.inr (.inr rfl))))) rfl (by simp [tw, Fin.th])
      | some v =>
        exact quiet_run inj hR hin ho hth hs (f := .ret (.item v)) (by simp [chans, Chan.obj, Chan.enterLoop])
          (.inr (.inr (.inr (.inr (.inl ⟨v, rfl⟩))))) rfl (by simp [tw, Fin.th])
  case close =>
    rcases hph with hk | hk <;> cases hk
    right
    have hl : locs P s w = c.ps w := by rw [← hview]; rfl
    obtain ⟨x, s', ps, ch, h1, h2, h3, h4, h5⟩ := do_close (it := it) (w := w) (h := h) (by rw [hl]; exact ho)
    exact loud_run inj hR hin ho hth hs (r := ⟨{ (c.obs j).sh with closed := true }, [.closes (tid w)], [.all .full, .all .empty], .ret .ok⟩)
      rfl (fun hh => ⟨rfl, hh.2⟩) (.inr rfl) h1 h2 ⟨by rw [h3]; exact hag.1, by simp [h4]⟩ (h5 _)
  all_goals exact hph.elim

/-- A coroutine calls `push`, `pop`, `close` or makes a step of a range-for loop. -/
theorem own_op {w : Who} {l : Loc α} {j : Nat} {k : Chan.Op α} {h : Chan.Res α → Loc α} (ho : own P it w l = .call j k h) :
    (∃ v, k = .push v) ∨ k = .pop ∨ k = .next ∨ k = .close := by
  have hr : ∀ (g : Pipe.Stage α) p, reads g p = .pop ∨ reads g p = .next := by
    intro g p
    simp only [reads]
    split <;> simp
    omega
  cases w <;> cases l <;> simp only [own] at ho
  all_goals first | cases ho | skip
  all_goals repeat' split at ho
  all_goals simp only [Next.call.injEq, reduceCtorEq] at ho
  all_goals obtain ⟨-, rfl, -⟩ := ho
  all_goals first
    | exact .inl ⟨_, rfl⟩
    | exact .inr (.inl rfl)
    | exact .inr (.inr (.inl rfl))
    | exact .inr (.inr (.inr rfl))
    | (rcases hr _ _ with hr | hr <;> rw [hr] <;> simp)

theorem next_call {tid : Who → Tid} {inj : ∀ a b, tid a = tid b → a = b} {w : Who} {ps : Who → Loc α} {j : Nat} {k : Chan.Op α}
    {h : Chan.Res α → Loc α} (hn : (prog P it tid inj).next w ps = .call j k h) : own P it w (ps w) = .call j k h := by
  cases w <;> simp only [prog] at hn
  case stage i => split at hn
                  · cases hn
                  · exact hn
  all_goals exact hn

/-- Proof device: what the events of a pipeline are like. A range-for loop is never entered without a value; only calls that the class
offers; only the source pushes into its channel. (Concerns co_pipeline.h:65-352.) -/
def Good (tid : Who → Tid) : Nat × Ev (Chan.Op α) (Chan.Res α) (Chan.Lin α) → Prop
  | (_, .ret _ r) => r ≠ .nullDeref
  | (j, .call t k) => k.callable ∧ ∀ v, k = .push v → j = 0 → t = tid .src
  | _ => True

/-- **Every step** of the pipeline over atomic channels is no step of `Pipe.step` (and then it brings the coroutine nearer to one) or one
step. -/
theorem sim_step {tid : Who → Tid} {inj : ∀ a b, tid a = tid b → a = b} {c c' : Atomic α} (hR : R P it tid c s) {w : Who} {b : Bool}
    {es : List (Nat × Ev (Chan.Op α) (Chan.Res α) (Chan.Lin α))}
    (hs : c.step (absM (chans P)) (prog P it tid inj) (w, b) = some (c', es)) :
    (Quiet P it tid c c' s w ∨ Loud P it tid c' s) ∧ ∀ e ∈ es, Good tid e := by
  simp only [Sys.step] at hs
  cases hin : c.inside w with
  | none =>
    rw [hin] at hs
    simp only at hs
    have hpsw : c.ps w = locs P s w := by rw [← hR.view w]; simp only [view, hin]
    cases hn : (prog P it tid inj).next w c.ps with
    | stop => rw [hn] at hs; cases hs
    | go l =>
      rw [hn] at hs; cases hs
      refine ⟨.inr ?_, by simp⟩
      obtain ⟨x, s', ps, h1, h2, h3⟩ := do_go hR.pi.frk hpsw (by
        intro u hu
        cases hi : c.inside u with
        | none => rw [← hR.view u]; simp only [view, hi]
        | some q =>
          exfalso
          obtain ⟨k, ho, _⟩ := hR.calls u q.1 q.2 hi
          cases hc : c.ps u <;> simp only [hc, ended] at hu <;> try cases hu
          rename_i y
          cases y <;> simp only at hu <;> try cases hu
          rw [hc] at ho
          cases u <;> simp only [own] at ho <;> repeat' split at ho
          all_goals cases ho) hn
      refine ⟨x, s', ps, h1, ?_, ?_, ?_, pi_step hR.pi h1, hR.wf⟩
      · intro j; rw [h2]; exact hR.ch j
      · intro u
        by_cases hu : u = w
        · subst hu; rw [h3.1]; simp [view, hin]
        · rw [h3.2 u hu, ← hR.view u]; simp only [view]
          rw [setC_other _ _ hu]
      · intro u j g hi
        have hu : u ≠ w := by rintro rfl; rw [show c.inside u = some (j, g) from hi] at hin; cases hin
        simp only [setC_other _ _ hu]
        exact hR.calls u j g hi
    | call j k g =>
      rw [hn] at hs
      simp only [Option.map_eq_some_iff] at hs
      obtain ⟨⟨a, es'⟩, hf, hs⟩ := hs
      cases hs
      have hf : (c.obs j).step (chans P j) (.call (tid w) k) = some (a, es') := hf
      have hwf := Abs.wf_step _ _ _ _ (hR.wf j) hf
      simp only [Monitor.Abs.step] at hf
      split at hf
      · rename_i hid
        simp only [Option.some.injEq, Prod.mk.injEq] at hf
        obtain ⟨rfl, rfl⟩ := hf
        have ho := next_call hn
        have hop := own_op ho
        have htw : tw (.ready k : Th Chan.Cv (Chan.Op α) (Chan.Res α)) = 4 := by
          rcases hop with ⟨v, rfl⟩ | rfl | rfl | rfl <;> rfl
        have hpv : ∀ l h, pview l h (.ready k : Th Chan.Cv (Chan.Op α) (Chan.Res α)) = l := by
          intro l h
          rcases hop with ⟨v, rfl⟩ | rfl | rfl | rfl <;> rfl
        have hoth : ∀ u, u ≠ w → ∀ i, (upd c.obs j { c.obs j with th := upd (c.obs j).th (tid w) (.ready k) } i).th (tid u) =
            (c.obs i).th (tid u) := by
          intro u hu i
          by_cases hij : i = j
          · subst hij; rw [upd_same]; simp only; rw [upd_other _ _ (fun hh => hu (inj _ _ hh))]
          · rw [upd_other _ _ hij]
        have hsh : ∀ i, (upd c.obs j { c.obs j with th := upd (c.obs j).th (tid w) (.ready k) } i).sh = (c.obs i).sh := by
          intro i
          by_cases hij : i = j
          · subst hij; rw [upd_same]
          · rw [upd_other _ _ hij]
        refine ⟨.inl ⟨⟨?_, ?_, ?_, hR.pi, ?_⟩, ?_, ?_⟩, ?_⟩
        rotate_right
        · intro e he
          simp only [List.map_cons, List.map_nil, List.mem_singleton] at he
          subst he
          refine ⟨?_, ?_⟩
          · rcases hop with ⟨v, rfl⟩ | rfl | rfl | rfl <;> trivial
          · rintro v rfl hj
            simp only [prog, (push_src ho).1.2 hj]
        · intro i; simp only [prog, hsh]; exact hR.ch i
        · intro u
          by_cases hu : u = w
          · subst hu
            simp only [view, setC_same, prog, upd_same, hpv]; exact hpsw
          · rw [← hR.view u]
            simp only [view]
            rw [setC_other _ _ hu]
            cases hi : c.inside u with
            | none => rfl
            | some q => simp only [prog]; rw [hoth u hu]
        · intro u i h hi
          by_cases hu : u = w
          · subst hu
            simp only [setC_same, Option.some.injEq, Prod.mk.injEq] at hi
            obtain ⟨rfl, rfl⟩ := hi
            refine ⟨k, ho, ?_⟩
            simp only [prog, upd_same]
            rcases hop with ⟨v, rfl⟩ | rfl | rfl | rfl
            all_goals exact .inl rfl
          · simp only [setC_other _ _ hu] at hi
            obtain ⟨k', h1, h2⟩ := hR.calls u i h hi
            refine ⟨k', h1, ?_⟩
            simp only [prog, hsh]; rw [hoth u hu]; exact h2
        · intro i
          by_cases hij : i = j
          · subst hij; simpa using hwf
          · simpa [hij] using hR.wf i
        · simp only [wgt, setC_same, hin, prog, upd_same, htw]; omega
        · intro u hu
          simp only [wgt]
          rw [setC_other _ _ hu]
          cases hi : c.inside u with
          | none => rfl
          | some q => simp only [prog]; rw [hoth u hu]
      · cases hf
  | some q =>
    obtain ⟨j, h⟩ := q
    rw [hin] at hs
    simp only [Option.map_eq_some_iff] at hs
    obtain ⟨⟨a, es'⟩, hf, hs⟩ := hs
    rcases absM_run hf with ⟨k, hth, hst, hr⟩ | ⟨v, hth, rfl, rfl⟩
    · simp only [hr] at hs
      cases hs
      refine ⟨sim_run inj hR hin hth hst, ?_⟩
      intro e he
      simp only [List.mem_map] at he
      obtain ⟨e, he, rfl⟩ := he
      simp only [Monitor.Abs.step, show (c.obs j).th ((prog P it tid inj).tid w) = .ready k from hth, Option.some.injEq, Prod.mk.injEq] at hst
      rw [← hst.2] at he
      simp only [List.mem_map] at he
      obtain ⟨x, _, rfl⟩ := he
      trivial
    · simp only [retOf] at hs
      cases hs
      obtain ⟨k, ho, hph⟩ := hR.calls w j h hin
      have hth : (c.obs j).th (tid w) = .leaving v := hth
      have hstep : (c.obs j).step (chans P j) (.leave (tid w)) =
          some ({ c.obs j with th := upd (c.obs j).th (tid w) .idle }, [.ret (tid w) v]) := by
        simp only [Monitor.Abs.step, hth]
      have hwf := Abs.wf_step _ _ _ _ (hR.wf j) hstep
      have hoth : ∀ u, u ≠ w → ∀ i, (upd c.obs j { c.obs j with th := upd (c.obs j).th (tid w) .idle } i).th (tid u) =
          (c.obs i).th (tid u) := by
        intro u hu i
        by_cases hij : i = j
        · subst hij; rw [upd_same]; simp only; rw [upd_other _ _ (fun hh => hu (inj _ _ hh))]
        · rw [upd_other _ _ hij]
      have hsh : ∀ i, (upd c.obs j { c.obs j with th := upd (c.obs j).th (tid w) .idle } i).sh = (c.obs i).sh := by
        intro i
        by_cases hij : i = j
        · subst hij; rw [upd_same]
        · rw [upd_other _ _ hij]
      refine ⟨.inl ⟨⟨?_, ?_, ?_, hR.pi, ?_⟩, ?_, ?_⟩, ?_⟩
      · intro i; simp only [prog, hsh]; exact hR.ch i
      · intro u
        rw [← hR.view u]
        by_cases hu : u = w
        · subst hu
          simp only [view, setC_same, hin, hth, pview]
        · simp only [view]
          rw [setC_other _ _ hu, setC_other _ _ hu]
          cases hi : c.inside u with
          | none => rfl
          | some q => simp only [prog]; rw [hoth u hu]
      · intro u i g hi
        by_cases hu : u = w
        · subst hu; simp at hi
        · simp only [setC_other _ _ hu] at hi ⊢
          obtain ⟨k', h1, h2⟩ := hR.calls u i g hi
          refine ⟨k', h1, ?_⟩
          simp only [prog, hsh]; rw [hoth u hu]; exact h2
      · intro i
        by_cases hij : i = j
        · subst hij; simp only [upd_same]; exact hwf
        · simpa [hij] using hR.wf i
      · simp only [wgt, setC_same, hin, hth, tw]; omega
      · intro u hu
        simp only [wgt]
        rw [setC_other _ _ hu]
        cases hi : c.inside u with
        | none => rfl
        | some q => simp only [prog]; rw [hoth u hu]
      · intro e he
        simp only [List.map_cons, List.map_nil, List.mem_singleton] at he
        subst he
        rintro rfl
        rw [hth] at hph
        rcases own_op ho with ⟨v, rfl⟩ | rfl | rfl | rfl <;> simp [Phase] at hph

end Verif.Real
