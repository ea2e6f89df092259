import Verif.Chan.ChanInv

/-! # Who can be blocked in a channel operation (helpers for C37, C38) -/

namespace Verif.Chan
open Monitor
section
variable {α : Type} {kd : Kind}

/-- Points at which a coroutine woken from `cv_empty__` continues. (Concerns co_chan.h:21-386.) -/
def popper : Op α → Prop
  | .popW | .nextW => True
  | _ => False

/-- Points at which a coroutine woken from `cv_full__` in the first wait of `push` continues. (Concerns co_chan.h:21-386.) -/
def pusher : Op α → Prop
  | .pushW _ => True
  | _ => False

/-- What a section can do. (Concerns co_chan.h:21-386.) -/
inductive Does (kd : Kind) (k : Op α) (c : Ch α) (r : O α) : Prop
  | enter (v : α) (hk : k = .push v ∨ k = .pushW v) (hc : c.closed = false) (hsh : r.sh = { c with data := c.data ++ [v] })
      (hs : r.sigs = [.one .empty]) (hf : (kd ≠ .sync ∧ ∀ d j, r.fin ≠ .park d j) ∨ (kd = .sync ∧ k = .push v ∧
        c.data.length ≠ 1 ∧ r.fin = .park .full .syncW))
  | take (v : α) (rest : List α) (hd : c.data = v :: rest) (hk : ¬ pusher k ∧ k ≠ .syncW ∧ ∀ v, k ≠ .push v)
      (hsh : r.sh = { c with data := rest })
      (hs : r.sigs = [.one .full]) (hf : ∀ d j, r.fin ≠ .park d j)
  | parkE (w : Op α) (hw : popper w) (hd : c.data = []) (hc : c.closed = false) (hk : ¬ pusher k ∧ k ≠ .syncW ∧ ∀ v, k ≠ .push v)
      (hsh : r.sh = c) (hs : r.sigs = []) (hf : r.fin = .park .empty w)
  | parkF (w : Op α) (hc : c.closed = false) (hk : ¬ popper k) (hsh : r.sh = c) (hs : r.sigs = [])
      (hf : r.fin = .park .full w)
      (hn : (∃ n, kd = .fixed n ∧ pusher w ∧ (c.data.length = n ∨ ¬ c.data.length < n)) ∨
        (kd = .sync ∧ (∃ v, w = .pushW v ∧ ((k = .push v ∧ c.data.length = 1) ∨ k = .pushW v))) ∨
        (w = .syncW ∧ k = .syncW ∧ c.data ≠ []))
  | quiet (hk : popper k → c.closed = true) (hk2 : pusher k → kd ≠ .unlimited → c.closed = true)
      (hk3 : k = .syncW → c.closed = true ∨ c.data = []) (hk4 : ∀ v, k = .push v → c.closed = true) (hsh : r.sh = c)
      (hs : r.sigs = []) (hf : ∀ d j, r.fin ≠ .park d j)
  | close (hk : k = .close) (hsh : r.sh = { c with closed := true }) (hs : r.sigs = [.all .full, .all .empty])
      (hf : ∀ d j, r.fin ≠ .park d j)

theorem popBody_does (t : Tid) (k w : Op α) (f : Option α → Fin Cv (Op α) (Res α)) (c : Ch α)
    (hk : ¬ pusher k ∧ k ≠ .syncW ∧ ∀ v, k ≠ .push v) (hw : popper w) (hf : ∀ o d j, f o ≠ .park d j) :
    Does kd k c (popBody t w f c) := by
  obtain ⟨data, closed⟩ := c
  cases data with
  | nil =>
    cases closed with
    | true =>
      exact .quiet (by simp) (fun h => absurd h hk.1) (by simp) (by simp) rfl rfl (hf none)
    | false => exact .parkE w hw rfl rfl hk rfl rfl rfl
  | cons v rest => exact .take v rest rfl hk rfl rfl (hf _)

theorem does (kd : Kind) (t : Tid) (k : Op α) (c : Ch α) : Does kd k c ((obj kd).body t k c) := by
  cases k with
  | push v =>
    cases hc : c.closed with
    | true =>
      have hb : (obj kd).body t (.push v) c = ⟨c, [.refused t], [], .ret (.pushed false)⟩ := by simp [obj, hc]
      rw [hb]
      exact .quiet (by simp [popper]) (by simp [pusher]) (by simp) (fun _ _ => hc) rfl rfl (by simp)
    | false =>
      cases kd with
      | unlimited =>
        have hb : (obj .unlimited).body t (.push v) c = enter t v (.ret (.pushed true)) c := by simp [obj, hc]
        rw [hb]
        exact .enter v (Or.inl rfl) hc rfl rfl (Or.inl ⟨by simp, by simp [enter]⟩)
      | fixed n =>
        by_cases hn : c.data.length = n
        · have hb : (obj (.fixed n)).body t (.push v) c = ⟨c, [], [], .park .full (.pushW v)⟩ := by simp [obj, hc, hn]
          rw [hb]
          exact .parkF (.pushW v) hc (by simp [popper]) rfl rfl rfl (Or.inl ⟨n, rfl, trivial, Or.inl hn⟩)
        · have hb : (obj (.fixed n)).body t (.push v) c = enter t v (.ret (.pushed true)) c := by simp [obj, hc, hn]
          rw [hb]
          exact .enter v (Or.inl rfl) hc rfl rfl (Or.inl ⟨by simp, by simp [enter]⟩)
      | sync =>
        by_cases hn : c.data.length = 1
        · have hb : (obj .sync).body t (.push v) c = ⟨c, [], [], .park .full (.pushW v)⟩ := by simp [obj, hc, hn]
          rw [hb]
          exact .parkF (.pushW v) hc (by simp [popper]) rfl rfl rfl (Or.inr (Or.inl ⟨rfl, v, rfl, Or.inl ⟨rfl, hn⟩⟩))
        · have hb : (obj .sync).body t (.push v) c = enter t v (.park .full .syncW) c := by simp [obj, hc, hn]
          rw [hb]
          exact .enter v (Or.inl rfl) hc rfl rfl (Or.inr ⟨rfl, rfl, hn, rfl⟩)
  | pushW v =>
    cases kd with
    | unlimited =>
      have hb : (obj .unlimited).body t (.pushW v) c = ⟨c, [], [], .ret .ok⟩ := by simp [obj]
      rw [hb]
      exact .quiet (by simp [popper]) (by simp) (by simp) (by simp) rfl rfl (by simp)
    | fixed n =>
      cases hc : c.closed with
      | true =>
        have hb : (obj (.fixed n)).body t (.pushW v) c = ⟨c, [.refused t], [], .ret (.pushed false)⟩ := by simp [obj, hc]
        rw [hb]
        exact .quiet (by simp [popper]) (fun _ _ => hc) (by simp) (fun _ _ => hc) rfl rfl (by simp)
      | false =>
        by_cases hn : c.data.length < n
        · have hb : (obj (.fixed n)).body t (.pushW v) c = enter t v (.ret (.pushed true)) c := by simp [obj, hc, hn]
          rw [hb]
          exact .enter v (Or.inr rfl) hc rfl rfl (Or.inl ⟨by simp, by simp [enter]⟩)
        · have hb : (obj (.fixed n)).body t (.pushW v) c = ⟨c, [], [], .park .full (.pushW v)⟩ := by simp [obj, hc, hn]
          rw [hb]
          exact .parkF (.pushW v) hc (by simp [popper]) rfl rfl rfl (Or.inl ⟨n, rfl, trivial, Or.inr hn⟩)
    | sync =>
      cases hc : c.closed with
      | true =>
        have hb : (obj .sync).body t (.pushW v) c = ⟨c, [.refused t], [], .ret (.pushed false)⟩ := by simp [obj, hc]
        rw [hb]
        exact .quiet (by simp [popper]) (fun _ _ => hc) (by simp) (fun _ _ => hc) rfl rfl (by simp)
      | false =>
        have hb : (obj .sync).body t (.pushW v) c = ⟨c, [], [], .park .full (.pushW v)⟩ := by simp [obj, hc]
        rw [hb]
        exact .parkF (.pushW v) hc (by simp [popper]) rfl rfl rfl (Or.inr (Or.inl ⟨rfl, v, rfl, Or.inr rfl⟩))
  | syncW =>
    by_cases hc : c.closed = true ∨ c.data = []
    · have hb : (obj kd).body t .syncW c = ⟨c, [], [], .ret (.pushed true)⟩ := by simp [obj, hc]
      rw [hb]
      exact .quiet (by simp [popper]) (by simp [pusher]) (fun _ => hc) (by simp) rfl rfl (by simp)
    · have hb : (obj kd).body t .syncW c = ⟨c, [], [], .park .full .syncW⟩ := by simp [obj, hc]
      rw [hb]
      rw [not_or, Bool.not_eq_true] at hc
      exact .parkF .syncW hc.1 (by simp [popper]) rfl rfl rfl (Or.inr (Or.inr ⟨rfl, rfl, hc.2⟩))
  | pop | popW => all_goals refine popBody_does t _ .popW (fun o => .ret (.popped o)) c ?_ trivial ?_ <;> simp [pusher]
  | next | nextW => all_goals refine popBody_does t _ .nextW (fun o => .next (.nextC o)) c ?_ trivial ?_ <;> simp [pusher]
  | nextC o =>
    exact .quiet (by simp [popper]) (by simp [pusher]) (by simp) (by simp) rfl rfl (by simp only [obj]; split <;> simp)
  | nextE o =>
    refine .quiet (by simp [popper]) (by simp [pusher]) (by simp) (by simp) rfl rfl ?_
    simp only [obj]; split
    · cases o <;> simp
    · simp
  | close => exact .close rfl rfl rfl (by simp [obj])
  | isClosed => exact .quiet (by simp [popper]) (by simp [pusher]) (by simp) (by simp) rfl rfl (by simp [obj])
  | isEmpty => exact .quiet (by simp [popper]) (by simp [pusher]) (by simp) (by simp) rfl rfl (by simp [obj])

theorem wq_close {a : AbsSt α} {t : Tid} {k : Op α} {o : Obj (Ch α) Cv (Op α) (Res α) (Lin α)}
    (hs : (o.body t k a.sh).sigs = [.all .full, .all .empty])
    (hf : ∀ d j, (o.body t k a.sh).fin ≠ .park d j) (c : Cv) : (after o a t k).wq c = [] := by
  have : (after o a t k).wq = enqueue (notify (notify a.wq (.all .full)) (.all .empty)) t (o.body t k a.sh).fin := by
    simp [after, hs]
  rw [this]
  cases h : (o.body t k a.sh).fin with
  | park d j => exact absurd h (hf d j)
  | _ => cases c <;> simp [enqueue, notify, setC]

theorem wq_onePark {a : AbsSt α} {t : Tid} {k j : Op α} {o : Obj (Ch α) Cv (Op α) (Res α) (Lin α)}
    (hs : (o.body t k a.sh).sigs = [.one .empty]) (hf : (o.body t k a.sh).fin = .park .full j) :
    (after o a t k).wq .empty = (a.wq .empty).tail ∧ (after o a t k).wq .full = a.wq .full ++ [t] := by
  have : (after o a t k).wq = enqueue (notify a.wq (.one .empty)) t (.park .full j : Fin Cv (Op α) (Res α)) := by
    simp [after, hs, hf]
  rw [this]
  simp [enqueue, notify, setC]

/-- Waiters for values: all are poppers; while there are any, the channel is open and for every value in it somebody who
will take one is on its way. (Concerns co_chan.h:21-386.) -/
structure LiveE (a : AbsSt α) : Prop where
  kind : ∀ u j, a.th u = .parked .empty j → popper j
  acq : a.wq .empty ≠ [] → a.sh.closed = false ∧ Promise a popper a.sh.data.length

theorem kind_after {a : AbsSt α} {t : Tid} {k : Op α} {c : Cv} {p : Op α → Prop}
    (h : ∀ u j, a.th u = .parked c j → p j)
    (hf : ∀ j, ((obj kd).body t k a.sh).fin = .park c j → p j) (u : Tid) (j : Op α)
    (hu : (after (obj kd) a t k).th u = .parked c j) : p j := by
  by_cases hut : u = t
  · subst hut
    rw [after_self] at hu
    apply hf
    cases hx : ((obj kd).body u k a.sh).fin <;> simp_all [Fin.th]
  · exact h u j (after_parked hut hu).1

theorem frame_kind {a : AbsSt α} {t : Tid} {x : Th Cv (Op α) (Res α)} {c : Cv} {p : Op α → Prop}
    (h : ∀ u j, a.th u = .parked c j → p j) (hx : ∀ j, x ≠ .parked c j) (u : Tid) (j : Op α)
    (hu : upd a.th t x u = .parked c j) : p j := by
  by_cases hut : u = t
  · subst hut; rw [upd_same] at hu; exact absurd hu (hx j)
  · rw [upd_other _ _ hut] at hu; exact h u j hu

theorem liveE_step (a : AbsSt α) (x : AAct (Op α)) (a' : AbsSt α) (es : Trace α) (hw : a.Wf) (hL : LiveE a)
    (hs : a.step (obj kd) x = some (a', es)) : LiveE a' := by
  cases x with
  | call t k =>
    obtain ⟨ht, rfl, _⟩ := call_inv hs
    exact ⟨frame_kind hL.kind (by simp), fun h => ⟨(hL.acq h).1, (hL.acq h).2.frame (by simp [ht])⟩⟩
  | leave t =>
    obtain ⟨v, ht, rfl, _⟩ := leave_inv hs
    exact ⟨frame_kind hL.kind (by simp), fun h => ⟨(hL.acq h).1, (hL.acq h).2.frame (by simp [ht])⟩⟩
  | run t =>
    obtain ⟨k, ht, rfl, _⟩ := run_inv hs
    have hsh : (after (obj kd) a t k).sh = ((obj kd).body t k a.sh).sh := rfl
    cases does kd t k a.sh with
    | enter v hk hc hd hs hf =>
      have hnk : ¬ popper k := by rcases hk with rfl | rfl <;> simp [popper]
      have hwq : (after (obj kd) a t k).wq .empty = (a.wq .empty).tail := by
        rcases hf with ⟨_, hf⟩ | ⟨_, _, _, hf⟩
        · rw [wq_one hs hf]; simp
        · exact (wq_onePark hs hf).1
      refine ⟨kind_after hL.kind (fun j h => ?_), fun h => ?_⟩
      · rcases hf with ⟨_, hf⟩ | ⟨_, _, _, hf⟩
        · exact absurd h (hf _ _)
        · rw [hf] at h; cases h
      · rw [hsh, hd]
        refine ⟨hc, ?_⟩
        rw [hwq] at h
        cases hq : a.wq .empty with
        | nil => simp [hq] at h
        | cons u rest =>
          simp only [List.length_append, List.length_cons, List.length_nil]
          exact ((hL.acq (by simp [hq])).2.wake hw ht hnk (u := u) (c := .empty) (by simp [hq])
            (by rw [hwq]; exact head_not_tail hw hq) hL.kind).mono (by push_cast; omega)
    | take v rest hd hk hd' hs hf =>
      have hwq : (after (obj kd) a t k).wq .empty = a.wq .empty := by rw [wq_one hs hf]; simp [setC]
      refine ⟨kind_after hL.kind (fun j h => absurd h (hf _ _)), fun h => ?_⟩
      rw [hwq] at h
      rw [hsh, hd']
      refine ⟨(hL.acq h).1, ((hL.acq h).2.drop (o := obj kd) (t := t) (k := k)).mono ?_⟩
      rw [hd]; simp
    | parkE w hw' hd hc hk hd' hs hf =>
      refine ⟨kind_after hL.kind (fun j h => ?_), fun h => ?_⟩
      · rw [hf] at h; cases h; exact hw'
      · rw [hsh, hd', hd]; exact ⟨hc, .zero (by simp)⟩
    | parkF w hc hk hd' hs hf hn =>
      have hwq : (after (obj kd) a t k).wq .empty = a.wq .empty := by rw [wq_park hs hf]; simp [setC]
      refine ⟨kind_after hL.kind (fun j h => ?_), fun h => ?_⟩
      · rw [hf] at h; cases h
      · rw [hsh, hd']; rw [hwq] at h
        exact ⟨(hL.acq h).1, (hL.acq h).2.keep ht hk⟩
    | quiet hk hk2 hk3 hk4 hd' hs hf =>
      have hwq := wq_nil hs hf
      refine ⟨kind_after hL.kind (fun j h => absurd h (hf _ _)), fun h => ?_⟩
      rw [hsh, hd']; rw [hwq] at h
      have h0 := hL.acq h
      exact ⟨h0.1, h0.2.keep ht (fun hp => by rw [hk hp] at h0; exact absurd h0.1 (by simp))⟩
    | close hk hd' hs hf =>
      refine ⟨kind_after hL.kind (fun j h => absurd h (hf _ _)), fun h => ?_⟩
      exact absurd (wq_close hs hf .empty) h

/-- Waiters for room, buffered and unlimited channels. (Concerns co_chan.h:21-386.) -/
structure LiveF (kd : Kind) (a : AbsSt α) : Prop where
  kind : ∀ u j, a.th u = .parked .full j → pusher j ∧ ∃ n, kd = .fixed n
  rel : ∀ n, kd = .fixed n → a.wq .full ≠ [] → a.sh.closed = false ∧ Promise a pusher (n - a.sh.data.length)
  ns : ∀ u, a.th u ≠ .ready .syncW

theorem no_sync_after {a : AbsSt α} {t : Tid} {k : Op α} (hns : ∀ u, a.th u ≠ .ready .syncW)
    (hnp : ∀ u c, a.th u ≠ .parked c .syncW)
    (hf : ((obj kd).body t k a.sh).fin.th ≠ .ready .syncW) (u : Tid) : (after (obj kd) a t k).th u ≠ .ready .syncW := by
  by_cases hut : u = t
  · subst hut; rw [after_self]; exact hf
  · rw [after_th hut]
    cases hx : a.th u with
    | parked c j =>
      simp only [settle]
      split
      · simp
      · intro h; cases h; exact hnp u c hx
    | ready j => simp only [settle]; rw [← hx]; exact hns u
    | _ => simp [settle]

theorem fin_not_sync (kd : Kind) (t : Tid) (k : Op α) (c : Ch α) : ((obj kd).body t k c).fin ≠ .next .syncW := by
  cases k with
  | push v => simp only [obj, enter]; repeat' split
              all_goals simp
  | pushW v => simp only [obj, enter]; repeat' split
               all_goals simp
  | syncW => simp only [obj]; split <;> simp
  | pop | popW | next | nextW => all_goals simp only [obj, popBody]; repeat' split
                                 all_goals simp
  | nextC o => simp only [obj]; split <;> simp
  | nextE o => simp only [obj]; split
               · cases o <;> simp
               · simp
  | _ => simp [obj]

theorem liveF_step (hns : kd ≠ .sync) (a : AbsSt α) (x : AAct (Op α)) (a' : AbsSt α) (es : Trace α) (hw : a.Wf)
    (hE : LiveE a) (hL : LiveF kd a) (hP : ∀ t k, x = .call t k → Op.callable k)
    (hs : a.step (obj kd) x = some (a', es)) : LiveF kd a' := by
  cases x with
  | call t k =>
    obtain ⟨ht, rfl, _⟩ := call_inv hs
    refine ⟨frame_kind hL.kind (by simp), fun n hn h => ⟨(hL.rel n hn h).1, (hL.rel n hn h).2.frame (by simp [ht])⟩,
      fun u => ?_⟩
    by_cases hu : u = t
    · subst hu
      have := hP u k rfl
      simp only [upd_same, ne_eq, Th.ready.injEq]
      rintro rfl
      exact this
    · simp only [upd_other _ _ hu]; exact hL.ns u
  | leave t =>
    obtain ⟨v, ht, rfl, _⟩ := leave_inv hs
    refine ⟨frame_kind hL.kind (by simp), fun n hn h => ⟨(hL.rel n hn h).1, (hL.rel n hn h).2.frame (by simp [ht])⟩,
      fun u => ?_⟩
    by_cases hu : u = t
    · subst hu; simp
    · simp only [upd_other _ _ hu]; exact hL.ns u
  | run t =>
    obtain ⟨k, ht, rfl, _⟩ := run_inv hs
    have hsh : (after (obj kd) a t k).sh = ((obj kd).body t k a.sh).sh := rfl
    have hsync : ∀ u, (after (obj kd) a t k).th u ≠ .ready .syncW := by
      refine no_sync_after hL.ns (fun u c h => ?_) ?_
      · cases c with
        | full => exact (hL.kind u _ h).1
        | empty => exact hE.kind u _ h
      · have := fin_not_sync kd t k a.sh
        cases hx : ((obj kd).body t k a.sh).fin <;> simp_all [Fin.th]
    cases does kd t k a.sh with
    | enter v hk hc hd hs hf =>
      rcases hf with ⟨_, hf⟩ | ⟨hk', _⟩
      · have hwq : (after (obj kd) a t k).wq .full = a.wq .full := by rw [wq_one hs hf]; simp [setC]
        refine ⟨kind_after hL.kind (fun j h => absurd h (hf _ _)), fun n hn h => ?_, hsync⟩
        rw [hwq] at h
        rw [hsh, hd]
        refine ⟨hc, ((hL.rel n hn h).2.drop (o := obj kd) (t := t) (k := k)).mono ?_⟩
        simp only [List.length_append, List.length_cons, List.length_nil]; push_cast; omega
      · exact absurd hk' hns
    | take v rest hd hk hd' hs hf =>
      have hwq : (after (obj kd) a t k).wq .full = (a.wq .full).tail := by rw [wq_one hs hf]; simp
      refine ⟨kind_after hL.kind (fun j h => absurd h (hf _ _)), fun n hn h => ?_, hsync⟩
      rw [hsh, hd']
      rw [hwq] at h
      cases hq : a.wq .full with
      | nil => simp [hq] at h
      | cons u rest' =>
        have h0 := hL.rel n hn (by simp [hq])
        refine ⟨h0.1, (h0.2.wake hw ht hk.1 (u := u) (c := .full) (by simp [hq])
            (by rw [hwq]; exact head_not_tail hw hq) (fun u j h => (hL.kind u j h).1)).mono ?_⟩
        rw [hd]; simp only [List.length_cons]; push_cast; omega
    | parkE w hw' hd hc hk hd' hs hf =>
      have hwq : (after (obj kd) a t k).wq .full = a.wq .full := by rw [wq_park hs hf]; simp [setC]
      refine ⟨kind_after hL.kind (fun j h => ?_), fun n hn h => ?_, hsync⟩
      · rw [hf] at h; cases h
      · rw [hsh, hd']; rw [hwq] at h
        exact ⟨hc, (hL.rel n hn h).2.keep ht hk.1⟩
    | parkF w hc hk hd' hs hf hn =>
      refine ⟨kind_after hL.kind (fun j h => ?_), fun n hn' h => ?_, hsync⟩
      · rw [hf] at h; cases h
        rcases hn with ⟨n, hn, hp, _⟩ | ⟨hs', _⟩ | ⟨_, rfl, _⟩
        · exact ⟨hp, n, hn⟩
        · exact absurd hs' hns
        · exact absurd ht (hL.ns t)
      · rw [hsh, hd']
        rcases hn with ⟨m, hm, hp, hlen⟩ | ⟨hs', _⟩ | ⟨_, rfl, _⟩
        · rw [hn'] at hm; cases hm
          exact ⟨hc, .zero (by omega)⟩
        · exact absurd hs' hns
        · exact absurd ht (hL.ns t)
    | quiet hk hk2 hk3 hk4 hd' hs hf =>
      have hwq := wq_nil hs hf
      refine ⟨kind_after hL.kind (fun j h => absurd h (hf _ _)), fun n hn h => ?_, hsync⟩
      rw [hsh, hd']; rw [hwq] at h
      have h0 := hL.rel n hn h
      exact ⟨h0.1, h0.2.keep ht (fun hp => by rw [hk2 hp (by simp [hn])] at h0; exact absurd h0.1 (by simp))⟩
    | close hk hd' hs hf =>
      refine ⟨kind_after hL.kind (fun j h => absurd h (hf _ _)), fun n hn h => ?_, hsync⟩
      exact absurd (wq_close hs hf .full) h

theorem live_reach (hns : kd ≠ .sync) (as : List (Act (Op α))) (s : LowSt α) (es : Trace α)
    (h : runs (Low.step (obj kd)) (Low.init Ch.init) as = some (s, es))
    (hP : ∀ t k, Ev.call t k ∈ es → Op.callable k) : LiveE s.abs ∧ LiveF kd s.abs :=
  abs_inv_cl (obj kd) (fun _ k => Op.callable k) Ch.init as s es h hP (fun a => LiveE a ∧ LiveF kd a)
    ⟨⟨by simp [Abs.init], by simp [Abs.init]⟩, by simp [Abs.init], by simp [Abs.init], by simp [Abs.init]⟩
    (fun a x a' es hw hL hc hs => ⟨liveE_step a x a' es hw hL.1 hs, liveF_step hns a x a' es hw hL.1 hL.2 hc hs⟩)

end
end Verif.Chan
