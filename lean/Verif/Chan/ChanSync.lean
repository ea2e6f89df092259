import Verif.Chan.ChanLive

/-! # Unbuffered channel: one producer, and what goes wrong with two (helpers for C38) -/

namespace Verif.Chan
open Monitor
section
variable {α : Type}

/-- Single producer `p` on an unbuffered channel. (Concerns co_chan.h:21-386.) -/
structure LiveS (p : Tid) (a : AbsSt α) : Prop where
  kind : ∀ u j, a.th u = .parked .full j → u = p ∧ j = .syncW
  open_ : a.wq .full ≠ [] → a.sh.closed = false ∧ a.sh.data ≠ []
  prod : ∀ u, (∀ v, a.th u ≠ .ready (.pushW v)) ∧ ((∃ v, a.th u = .ready (.push v)) → u = p) ∧
    (a.th u = .ready .syncW → u = p)
  slot : a.th p = .ready .syncW ∨ a.th p = .parked .full .syncW ∨ a.sh.data = [] ∨ a.sh.closed = true

/-- Only `p` pushes and closes (a condition on the clients). (Concerns co_chan.h:21-386.) -/
def onlyProducer (p : Tid) (t : Tid) (k : Op α) : Prop := Op.callable k ∧ ((∃ v, k = .push v) → t = p)

theorem prod_after {p : Tid} {a : AbsSt α} {t : Tid} {k : Op α} (hE : LiveE a) (hL : LiveS p a)
    (hf : ∀ j, ((obj .sync).body t k a.sh).fin = .next j → (∀ v, j ≠ .pushW v) ∧ (∀ v, j ≠ .push v) ∧ j ≠ .syncW)
    (u : Tid) : (∀ v, (after (obj .sync) a t k).th u ≠ .ready (.pushW v)) ∧
      ((∃ v, (after (obj .sync) a t k).th u = .ready (.push v)) → u = p) ∧
      ((after (obj .sync) a t k).th u = .ready .syncW → u = p) := by
  have h0 := hL.prod u
  by_cases hut : u = t
  · subst hut
    rw [after_self]
    cases hx : ((obj .sync).body u k a.sh).fin with
    | next j => have := hf j hx; simp_all [Fin.th]
    | _ => simp [Fin.th]
  · rw [after_th hut]
    cases hx : a.th u with
    | parked c j =>
      simp only [settle]
      split
      · simp
      · cases c with
        | full => obtain ⟨rfl, rfl⟩ := hL.kind u j hx; simp
        | empty => have := hE.kind u j hx; cases j <;> simp_all [popper]
    | _ => rw [hx] at h0; simpa [settle] using h0

theorem fin_next (kd : Kind) (t : Tid) (k j : Op α) (c : Ch α) (h : ((obj kd).body t k c).fin = .next j) :
    (∀ v, j ≠ .pushW v) ∧ (∀ v, j ≠ .push v) ∧ j ≠ .syncW := by
  have : (∃ o, j = .nextC o) ∨ ∃ o, j = .nextE o := by
    cases k with
    | push v => simp only [obj, enter] at h; repeat' split at h
                all_goals simp at h
    | pushW v => simp only [obj, enter] at h; repeat' split at h
                 all_goals simp at h
    | syncW => simp only [obj] at h; split at h <;> simp at h
    | pop | popW => all_goals simp only [obj, popBody] at h; repeat' split at h
                    all_goals simp at h
    | next | nextW => all_goals simp only [obj, popBody] at h; repeat' split at h
                      all_goals first | (simp at h; done) | (cases h; exact Or.inl ⟨_, rfl⟩)
    | nextC o => simp only [obj] at h; split at h <;> cases h; exact Or.inr ⟨_, rfl⟩
    | nextE o => simp only [obj] at h; split at h
                 · cases o <;> simp at h
                 · simp at h
    | _ => simp [obj] at h
  rcases this with ⟨o, rfl⟩ | ⟨o, rfl⟩ <;> simp

theorem liveS_step (p : Tid) (a : AbsSt α) (x : AAct (Op α)) (a' : AbsSt α) (es : Trace α) (hw : a.Wf)
    (hE : LiveE a) (hL : LiveS p a) (hP : ∀ t k, x = .call t k → onlyProducer p t k)
    (hs : a.step (obj .sync) x = some (a', es)) : LiveS p a' := by
  cases x with
  | call t k =>
    obtain ⟨ht, rfl, _⟩ := call_inv hs
    have hc := hP t k rfl
    refine ⟨?_, hL.open_, fun u => ?_, ?_⟩
    · intro u j hu
      by_cases hut : u = t
      · subst hut; simp at hu
      · simp only [upd_other _ _ hut] at hu; exact hL.kind u j hu
    · by_cases hut : u = t
      · subst hut
        simp only [upd_same, ne_eq, Th.ready.injEq]
        refine ⟨fun v hv => ?_, hc.2, ?_⟩
        · subst hv; exact absurd hc.1 (by simp [Op.callable])
        · rintro rfl; exact absurd hc.1 (by simp [Op.callable])
      · simp only [upd_other _ _ hut]; exact hL.prod u
    · by_cases hpt : p = t
      · have := hL.slot
        subst hpt
        simp only [ht] at this
        simp only [reduceCtorEq, false_or] at this
        exact Or.inr (Or.inr this)
      · simp only [upd_other _ _ hpt]; exact hL.slot
  | leave t =>
    obtain ⟨v, ht, rfl, _⟩ := leave_inv hs
    refine ⟨?_, hL.open_, fun u => ?_, ?_⟩
    · intro u j hu
      by_cases hut : u = t
      · subst hut; simp at hu
      · simp only [upd_other _ _ hut] at hu; exact hL.kind u j hu
    · by_cases hut : u = t
      · subst hut; simp
      · simp only [upd_other _ _ hut]; exact hL.prod u
    · by_cases hpt : p = t
      · have := hL.slot
        subst hpt
        simp only [ht] at this
        simp only [reduceCtorEq, false_or] at this
        exact Or.inr (Or.inr this)
      · simp only [upd_other _ _ hpt]; exact hL.slot
  | run t =>
    obtain ⟨k, ht, rfl, _⟩ := run_inv hs
    have hsh : (after (obj .sync) a t k).sh = ((obj .sync).body t k a.sh).sh := rfl
    have hprod := prod_after (t := t) (k := k) hE hL (fun j h => fin_next _ _ _ j _ h)
    -- waiters of `cv_full__` afterwards
    have hkind : ∀ (hf : ∀ j, ((obj .sync).body t k a.sh).fin = .park .full j → t = p ∧ j = .syncW) (u : Tid) (j : Op α),
        (after (obj .sync) a t k).th u = .parked .full j → u = p ∧ j = .syncW := by
      intro hf u j hu
      by_cases hut : u = t
      · subst hut
        rw [after_self] at hu
        apply hf
        cases hx : ((obj .sync).body u k a.sh).fin <;> simp_all [Fin.th]
      · exact hL.kind u j (after_parked hut hu).1
    -- the slot, when the data are untouched or drained
    have hslot : ∀ (hd : ((obj .sync).body t k a.sh).sh.data = a.sh.data ∨ ((obj .sync).body t k a.sh).sh.data = [])
        (hcl : a.sh.closed = true → ((obj .sync).body t k a.sh).sh.closed = true)
        (hself : t = p → k = .syncW → (after (obj .sync) a t k).th p = .parked .full .syncW ∨ a.sh.closed = true ∨ a.sh.data = []),
        (after (obj .sync) a t k).th p = .ready .syncW ∨ (after (obj .sync) a t k).th p = .parked .full .syncW ∨
          (after (obj .sync) a t k).sh.data = [] ∨ (after (obj .sync) a t k).sh.closed = true := by
      intro hd hcl hself
      rw [hsh]
      rcases hd.symm with hd | hd
      · exact Or.inr (Or.inr (Or.inl hd))
      rw [hd]
      rcases hL.slot with h | h | h | h
      · by_cases hpt : p = t
        · have hpt' := hpt
          subst hpt'
          rw [ht] at h
          cases h
          rcases hself rfl rfl with h | h | h
          · exact Or.inr (Or.inl h)
          · exact Or.inr (Or.inr (Or.inr (hcl h)))
          · exact Or.inr (Or.inr (Or.inl h))
        · exact Or.inl (after_ready hpt h)
      · have hpt : p ≠ t := by rintro rfl; rw [ht] at h; cases h
        rw [after_th hpt, h]
        simp only [settle]
        split
        · exact Or.inr (Or.inl rfl)
        · exact Or.inl rfl
      · exact Or.inr (Or.inr (Or.inl h))
      · exact Or.inr (Or.inr (Or.inr (hcl h)))
    -- everybody waiting is `p`
    have hfull : ∀ u, u ∈ a.wq .full → u = p := by
      intro u hu
      obtain ⟨j, hj⟩ := (hw.mem .full u).1 hu
      exact (hL.kind u j hj).1
    cases does .sync t k a.sh with
    | enter v hk hc hd hs hf =>
      rcases hf with ⟨hf, _⟩ | ⟨_, hk', hlen, hf⟩
      · exact absurd rfl hf
      · have htp : t = p := (hL.prod t).2.1 ⟨v, by rw [ht, hk']⟩
        refine ⟨hkind (fun j h => by rw [hf] at h; cases h; exact ⟨htp, rfl⟩), fun _ => ?_, hprod, Or.inr (Or.inl ?_)⟩
        · rw [hsh, hd]; exact ⟨hc, by simp⟩
        · rw [← htp, after_self, hf]; rfl
    | take v rest hd hk hd' hs hf =>
      have hwq : (after (obj .sync) a t k).wq .full = (a.wq .full).tail := by rw [wq_one hs hf]; simp
      refine ⟨hkind (fun j h => absurd h (hf _ _)), fun h => ?_, hprod, ?_⟩
      · exfalso
        rw [hwq] at h
        cases hq : a.wq .full with
        | nil => simp [hq] at h
        | cons u rest' =>
          cases rest' with
          | nil => simp [hq] at h
          | cons u' r =>
            have h1 := hfull u (by simp [hq])
            have h2 := hfull u' (by simp [hq])
            have := hw.nodup .full
            rw [hq] at this
            simp [h1, h2] at this
      · rw [hsh, hd']
        rcases hL.slot with h | h | h | h
        · by_cases hpt : p = t
          · subst hpt; rw [ht] at h; cases h; exact absurd rfl hk.2.1
          · exact Or.inl (after_ready hpt h)
        · have hpt : p ≠ t := by rintro rfl; rw [ht] at h; cases h
          rw [after_th hpt, h]
          simp only [settle]
          split
          · exact Or.inr (Or.inl rfl)
          · exact Or.inl rfl
        · rw [hd] at h; cases h
        · exact Or.inr (Or.inr (Or.inr h))
    | parkE w hw' hd hc hk hd' hs hf =>
      have hwq : (after (obj .sync) a t k).wq .full = a.wq .full := by rw [wq_park hs hf]; simp [setC]
      refine ⟨hkind (fun j h => by rw [hf] at h; cases h), fun h => ?_, hprod,
        hslot (Or.inl (by rw [hd'])) (by rw [hd']; exact id) (fun _ h => absurd h hk.2.1)⟩
      rw [hwq] at h; rw [hsh, hd']; exact hL.open_ h
    | parkF w hc hk hd' hs hf hn =>
      rcases hn with ⟨n, hn, _⟩ | ⟨_, v, rfl, hn⟩ | ⟨rfl, rfl, hne⟩
      · cases hn
      · exfalso
        rcases hn with ⟨rfl, hlen⟩ | rfl
        · have htp : t = p := (hL.prod t).2.1 ⟨v, ht⟩
          subst htp
          rcases hL.slot with h | h | h | h
          · rw [ht] at h; cases h
          · rw [ht] at h; cases h
          · rw [h] at hlen; simp at hlen
          · rw [hc] at h; cases h
        · exact (hL.prod t).1 v ht
      · have htp : t = p := (hL.prod t).2.2 ht
        refine ⟨hkind (fun j h => by rw [hf] at h; cases h; exact ⟨htp, rfl⟩), fun _ => ?_, hprod, Or.inr (Or.inl ?_)⟩
        · rw [hsh, hd']; exact ⟨hc, hne⟩
        · rw [← htp, after_self, hf]; rfl
    | quiet hk hk2 hk3 hk4 hd' hs hf =>
      have hwq := wq_nil hs hf
      refine ⟨hkind (fun j h => absurd h (hf _ _)), fun h => ?_, hprod,
        hslot (Or.inl (by rw [hd'])) (by rw [hd']; exact id) (fun _ h => Or.inr (hk3 h))⟩
      rw [hsh, hd']; rw [hwq] at h; exact hL.open_ h
    | close hk hd' hs hf =>
      refine ⟨hkind (fun j h => absurd h (hf _ _)), fun h => ?_, hprod, Or.inr (Or.inr (Or.inr (by rw [hsh, hd'])))⟩
      exact absurd (wq_close hs hf .full) h

theorem liveS_reach (p : Tid) (as : List (Act (Op α))) (s : LowSt α) (es : Trace α)
    (h : runs (Low.step (obj .sync)) (Low.init Ch.init) as = some (s, es))
    (hP : ∀ t k, Ev.call t k ∈ es → onlyProducer p t k) : LiveE s.abs ∧ LiveS p s.abs :=
  abs_inv_cl (obj .sync) (onlyProducer p) Ch.init as s es h hP (fun a => LiveE a ∧ LiveS p a)
    ⟨⟨by simp [Abs.init], by simp [Abs.init]⟩, by simp [Abs.init], by simp [Abs.init], by simp [Abs.init],
      by simp [Abs.init, Ch.init]⟩
    (fun a x a' es hw hL hc hs => ⟨liveE_step a x a' es hw hL.1 hs, liveS_step p a x a' es hw hL.1 hL.2 hc hs⟩)

/-- A coroutine that found the unbuffered channel occupied: it stays in the queue, or has been refused. (Concerns co_chan.h:21-386.) -/
def Shut (t : Tid) (a : AbsSt α) : Prop :=
  ∃ v, a.th t = .ready (.pushW v) ∨ a.th t = .parked .full (.pushW v) ∨ a.th t = .leaving (.pushed false)

theorem shut_step (t : Tid) (a : AbsSt α) (x : AAct (Op α)) (a' : AbsSt α) (es : Trace α) (h : Shut t a)
    (hs : a.step (obj .sync) x = some (a', es)) :
    (Shut t a' ∧ (∀ v, Ev.lin (.accepted t v) ∉ es) ∧ ∀ r, Ev.ret t r ∉ es) ∨ es = [.ret t (.pushed false)] := by
  obtain ⟨v, h⟩ := h
  cases x with
  | call u k =>
    obtain ⟨hu, rfl, rfl⟩ := call_inv hs
    have hut : t ≠ u := by rintro rfl; rw [hu] at h; simp at h
    exact Or.inl ⟨⟨v, by simp only [upd_other _ _ hut]; exact h⟩, by simp, by simp⟩
  | leave u =>
    obtain ⟨r, hu, rfl, rfl⟩ := leave_inv hs
    by_cases hut : t = u
    · subst hut
      rw [hu] at h
      simp at h
      exact Or.inr (by rw [h])
    · have hut' : ¬ u = t := fun h => hut h.symm
      exact Or.inl ⟨⟨v, by simp only [upd_other _ _ hut]; exact h⟩, by simp, by simp [hut]⟩
  | run u =>
    obtain ⟨k, hu, rfl, rfl⟩ := run_inv hs
    by_cases hut : t = u
    · subst hut
      have hk : k = .pushW v := by rw [hu] at h; simpa using h
      subst hk
      refine Or.inl ?_
      cases hc : a.sh.closed with
      | true =>
        have hb : (obj .sync).body t (.pushW v) a.sh = ⟨a.sh, [.refused t], [], .ret (.pushed false)⟩ := by
          simp [obj, hc]
        exact ⟨⟨v, by rw [after_self, hb]; simp [Fin.th]⟩, by rw [hb]; simp, by rw [hb]; simp⟩
      | false =>
        have hb : (obj .sync).body t (.pushW v) a.sh = ⟨a.sh, [], [], .park .full (.pushW v)⟩ := by simp [obj, hc]
        exact ⟨⟨v, by rw [after_self, hb]; simp [Fin.th]⟩, by rw [hb]; simp, by rw [hb]; simp⟩
    · refine Or.inl ⟨⟨v, ?_⟩, ?_, by simp⟩
      · rw [after_th hut]
        rcases h with h | h | h
        · rw [h]; exact Or.inl rfl
        · rw [h]; simp only [settle]; split
          · exact Or.inr (Or.inl rfl)
          · exact Or.inl rfl
        · rw [h]; exact Or.inr (Or.inr rfl)
      · intro w hm
        rw [List.mem_map] at hm
        obtain ⟨e, he, hee⟩ := hm
        cases hee
        have hev : ∀ e ∈ ((obj .sync).body u k a.sh).ev, ∀ t w, e = .accepted t w → t = u := by
          intro e he t w hw
          subst hw
          cases k with
          | push v => simp only [obj, enter] at he; repeat' split at he
                      all_goals simp_all
          | pushW v => simp only [obj] at he; split at he <;> simp at he
          | syncW => simp only [obj] at he; split at he <;> simp at he
          | pop | popW | next | nextW => all_goals simp only [obj, popBody] at he; repeat' split at he
                                         all_goals simp at he
          | _ => simp [obj] at he
        exact hut (hev _ he t w rfl)

end
end Verif.Chan
