import Verif.Chan.Chan
import Verif.Monitor.Lib

/-! # The channel simulates its specification -/

namespace Verif.Chan
open Monitor
section
variable {α : Type} {kd : Kind}

/-- Abbreviation for the states of the interleaved machine, no counterpart in the code. (Concerns co_chan.h:21-386.) -/
abbrev LowSt (α : Type) := Low (Ch α) Cv (Op α) (Res α)
/-- Abbreviation for the states of the atomic machine, no counterpart in the code. (Concerns co_chan.h:21-386.) -/
abbrev AbsSt (α : Type) := Abs (Ch α) Cv (Op α) (Res α)
/-- Abbreviation for traces, no counterpart in the code. (Concerns co_chan.h:21-386.) -/
abbrev Trace (α : Type) := List (Ev (Op α) (Res α) (Lin α))

/-- Result of a loop step that obtained `o`. (Concerns co_chan.h:21-386.) -/
def itemRes : Option α → Res α
  | some v => .item v
  | none => .stop

/-- What the specification says about a coroutine at this point. (Concerns co_chan.h:21-386.) -/
def RK (q : Q α) : Op α → QTh α → Prop
  | .push v, y | .pushW v, y => y = .pushing v
  | .syncW, y => ∃ i, y = .entered i ∧ i < q.nin
  | .pop, y | .popW, y => y = .popping
  | .next, y | .nextW, y => y = .looping
  | .nextC o, y => y = .finished (itemRes o) ∧ (o = none → q.closed = true ∧ q.data = [])
  | .nextE o, y => y = .finished (itemRes o) ∧ (o = none → q.closed = true ∧ q.data = [])
  | .close, y => y = .closing
  | .isClosed, y => y = .askClosed
  | .isEmpty, y => y = .askEmpty

/-- Proof device: how a coroutine of the machine and of the specification correspond. (Concerns co_chan.h:21-386.) -/
def RT (kd : Kind) (q : Q α) : Th Cv (Op α) (Res α) → QTh α → Prop
  | .idle, y => y = .idle
  | .ready k, y | .parked _ k, y => RK q k y
  | .leaving r, y => y = .finished r ∨
      (r = .pushed true ∧ ∃ i, y = .entered i ∧ (kd = .sync → i < q.nout ∨ q.closed = true))

/-- Proof device: the simulation relation between machine and specification. (Concerns co_chan.h:21-386.) -/
structure R (kd : Kind) (a : AbsSt α) (q : Q α) : Prop where
  data : q.data = a.sh.data
  closed : q.closed = a.sh.closed
  cnt : q.nin = q.nout + q.data.length
  fit : fits kd a.sh.data.length
  th : ∀ t, RT kd q (a.th t) (q.th t)
  /-- the first wait of an unlimited channel's push does not exist -/
  unl : ∀ t v, (a.th t = .ready (.pushW v) ∨ ∃ c, a.th t = .parked c (.pushW v)) → kd ≠ .unlimited

theorem RT_settle {q : Q α} {wq : Cv → List Tid} {u : Tid} {x : Th Cv (Op α) (Res α)} {y : QTh α}
    (h : RT kd q x y) : RT kd q (settle wq u x) y := by
  cases x with
  | parked c k => simp only [settle]; split <;> exact h
  | _ => exact h

/-- The relation for a coroutine survives what others do. -/
theorem RT_mono {q q' : Q α} {x : Th Cv (Op α) (Res α)} {y : QTh α} (h1 : q.nin ≤ q'.nin) (h2 : q.nout ≤ q'.nout)
    (h3 : q.closed = true → q'.closed = true ∧ (q.data = [] → q'.data = [])) (h : RT kd q x y) : RT kd q' x y := by
  have hk : ∀ k, RK q k y → RK q' k y := by
    intro k hk
    cases k with
    | syncW => obtain ⟨i, hi, hi2⟩ := hk; exact ⟨i, hi, by omega⟩
    | nextC o | nextE o =>
      exact ⟨hk.1, fun ho => ⟨(h3 (hk.2 ho).1).1, (h3 (hk.2 ho).1).2 (hk.2 ho).2⟩⟩
    | _ => exact hk
  cases x with
  | idle => exact h
  | ready k => exact hk k h
  | parked c k => exact hk k h
  | leaving r =>
    rcases h with h | ⟨hr, i, hi, hi2⟩
    · exact Or.inl h
    · refine Or.inr ⟨hr, i, hi, fun hs => ?_⟩
      rcases hi2 hs with hi2 | hi2
      · exact Or.inl (by omega)
      · exact Or.inr (h3 hi2).1

theorem RT_th {q q' : Q α} {a : AbsSt α} {t u : Tid} {k : Op α} {y : QTh α} (hR : R kd a q)
    (h1 : q.nin ≤ q'.nin) (h2 : q.nout ≤ q'.nout)
    (h3 : q.closed = true → q'.closed = true ∧ (q.data = [] → q'.data = []))
    (hth : q'.th = upd q.th t y) (hself : RT kd q' ((obj kd).body t k a.sh).fin.th y) :
    RT kd q' ((after (obj kd) a t k).th u) (q'.th u) := by
  rw [hth]
  by_cases hu : u = t
  · subst hu
    rw [after_self, upd_same]
    exact hself
  · rw [after_th hu, upd_other _ _ hu]
    exact RT_settle (RT_mono h1 h2 h3 (hR.th u))

theorem unl_after {a : AbsSt α} {q : Q α} {t : Tid} {k : Op α} (hR : R kd a q)
    (hf : ∀ v, ((obj kd).body t k a.sh).fin.th = .ready (.pushW v) ∨
      (∃ c, ((obj kd).body t k a.sh).fin.th = .parked c (.pushW v)) → kd ≠ .unlimited) (u : Tid) (v : α)
    (h : (after (obj kd) a t k).th u = .ready (.pushW v) ∨ ∃ c, (after (obj kd) a t k).th u = .parked c (.pushW v)) :
    kd ≠ .unlimited := by
  by_cases hu : u = t
  · subst hu; rw [after_self] at h; exact hf v h
  · rw [after_th hu] at h
    refine hR.unl u v ?_
    cases hx : a.th u with
    | parked c j =>
      simp only [hx, settle] at h
      split at h <;> simp_all
    | _ => simp_all [settle]

theorem popBody_sim {a : AbsSt α} {q : Q α} {t : Tid} {k w : Op α} {f : Option α → Fin Cv (Op α) (Res α)}
    {y : QTh α} (hR : R kd a q) (hy : q.th t = y)
    (hb : (obj kd).body t k a.sh = popBody t w f a.sh)
    (hw : RK q w y) (hnw : ∀ v, w ≠ .pushW v)
    (hgot : ∀ v rest, q.data = v :: rest → ∃ q', Step kd q (.lin (.got t v)) q' ∧ q'.data = rest ∧
      q'.closed = q.closed ∧ q'.nout = q.nout + 1 ∧ q'.nin = q.nin ∧ ∃ z, q'.th = upd q.th t z ∧
      RT kd q' (f (some v)).th z)
    (hnone : q.closed = true → q.data = [] → ∃ q', Step kd q (.lin (.drained t)) q' ∧ q'.data = q.data ∧
      q'.closed = q.closed ∧ q'.nout = q.nout ∧ q'.nin = q.nin ∧ ∃ z, q'.th = upd q.th t z ∧
      RT kd q' (f none).th z)
    (hf : ∀ o v, (f o).th ≠ .ready (.pushW v) ∧ ∀ c, (f o).th ≠ .parked c (.pushW v)) :
    ∃ q', Path (Step kd) q (((obj kd).body t k a.sh).ev.map .lin) q' ∧ R kd (after (obj kd) a t k) q' := by
  cases hd : a.sh.data with
  | nil =>
    cases hc : a.sh.closed with
    | true =>
      have hb' : (obj kd).body t k a.sh = ⟨a.sh, [.drained t], [], f none⟩ := by rw [hb]; simp [popBody, hd, hc]
      obtain ⟨q', h1, h2, h3, h4, h5, z, h6, h7⟩ := hnone (by rw [hR.closed, hc]) (by rw [hR.data, hd])
      refine ⟨q', by rw [hb']; exact .one h1, ?_, ?_, ?_, ?_, ?_, ?_⟩
      · simp only [after, hb', h2, hR.data]
      · simp only [after, hb', h3, hR.closed]
      · rw [h5, h4, h2, hR.cnt]
      · simp only [after, hb']; exact hR.fit
      · exact fun u => RT_th hR (by omega) (by omega) (fun h => by simp [h3, h2, h]) h6 (by rw [hb']; exact h7)
      · exact unl_after hR (fun v h => by rw [hb'] at h; simp [hf none v] at h)
    | false =>
      have hb' : (obj kd).body t k a.sh = ⟨a.sh, [], [], .park .empty w⟩ := by rw [hb]; simp [popBody, hd, hc]
      refine ⟨q, by rw [hb']; exact .nil q, ?_, ?_, hR.cnt, ?_, ?_, ?_⟩
      · simp only [after, hb', hR.data]
      · simp only [after, hb', hR.closed]
      · simp only [after, hb']; exact hR.fit
      · exact fun u => RT_th (y := y) hR (by omega) (by omega) (fun h => by simp [h])
          (by rw [← hy]; funext u; by_cases hu : u = t <;> simp [hu]) (by rw [hb']; exact hw)
      · exact unl_after hR (fun v h => by rw [hb'] at h; simp [Fin.th, hnw v] at h)
  | cons v rest =>
    have hb' : (obj kd).body t k a.sh = ⟨{ a.sh with data := rest }, [.got t v], [.one .full], f (some v)⟩ := by
      rw [hb]; simp [popBody, hd]
    have hqd : q.data = v :: rest := by rw [hR.data, hd]
    obtain ⟨q', h1, h2, h3, h4, h5, z, h6, h7⟩ := hgot v rest hqd
    refine ⟨q', by rw [hb']; exact .one h1, ?_, ?_, ?_, ?_, ?_, ?_⟩
    · simp only [after, hb', h2]
    · simp only [after, hb', h3, hR.closed]
    · rw [h5, h4, h2, hR.cnt, hqd]; simp only [List.length_cons]; omega
    · have := hR.fit
      simp only [after, hb']
      rw [hd, List.length_cons] at this
      cases kd <;> simp only [fits] at this ⊢ <;> omega
    · exact fun u => RT_th hR (by omega) (by omega) (fun h => by simp [h3, h, hqd]) h6 (by rw [hb']; exact h7)
    · exact unl_after hR (fun v' h => by rw [hb'] at h; simp [hf (some v) v'] at h)

theorem enter_sim {a : AbsSt α} {q : Q α} {t : Tid} {k : Op α} {v : α} {f : Fin Cv (Op α) (Res α)}
    (hR : R kd a q) (hy : q.th t = .pushing v) (hb : (obj kd).body t k a.sh = enter t v f a.sh)
    (ho : a.sh.closed = false) (hroom : room kd a.sh.data.length = true)
    (hf : f = .ret (.pushed true) ∧ kd ≠ .sync ∨ f = .park .full .syncW) :
    ∃ q', Path (Step kd) q (((obj kd).body t k a.sh).ev.map .lin) q' ∧ R kd (after (obj kd) a t k) q' := by
  have hqo : q.closed = false := by rw [hR.closed, ho]
  refine ⟨_, by rw [hb]; exact .one (.accepted hy hqo (by rw [hR.data]; exact hroom)), ?_, ?_, ?_, ?_, ?_, ?_⟩
  · simp only [after, hb, enter, hR.data]
  · simp only [after, hb, enter, hR.closed]
  · simp only [List.length_append, List.length_cons, List.length_nil]; have := hR.cnt; omega
  · simp only [after, hb, enter, List.length_append, List.length_cons, List.length_nil]
    cases kd <;> simp only [fits, room, decide_eq_true_eq] at hroom ⊢ <;> omega
  · refine fun u => RT_th (y := .entered q.nin) hR (by simp only; omega) (by simp) (fun h => by simp [hqo] at h) rfl ?_
    rw [hb]
    rcases hf with ⟨rfl, hk⟩ | rfl
    · exact Or.inr ⟨rfl, _, rfl, fun h => absurd h hk⟩
    · exact ⟨_, rfl, by simp only; omega⟩
  · exact unl_after hR (fun v' h => by
      rw [hb] at h
      rcases hf with ⟨rfl, _⟩ | rfl <;> simp [enter, Fin.th] at h)

/-- A section without event. -/
theorem quiet_sim {a : AbsSt α} {q : Q α} {t : Tid} {k : Op α} {f : Fin Cv (Op α) (Res α)}
    (hR : R kd a q) (hb : (obj kd).body t k a.sh = ⟨a.sh, [], [], f⟩) (hf : RT kd q f.th (q.th t))
    (hk : kd ≠ .unlimited ∨ (∀ v, f.th ≠ .ready (.pushW v)) ∧ ∀ c v, f.th ≠ .parked c (.pushW v)) :
    ∃ q', Path (Step kd) q (((obj kd).body t k a.sh).ev.map .lin) q' ∧ R kd (after (obj kd) a t k) q' := by
  refine ⟨q, by rw [hb]; exact .nil q, ?_, ?_, hR.cnt, ?_, ?_, ?_⟩
  · simp only [after, hb, hR.data]
  · simp only [after, hb, hR.closed]
  · simp only [after, hb]; exact hR.fit
  · exact fun u => RT_th (y := q.th t) hR (by omega) (by omega) (fun h => by simp [h])
      (by funext u; by_cases hu : u = t <;> simp [hu]) (by rw [hb]; exact hf)
  · exact unl_after hR (fun v h => by
      rw [hb] at h
      rcases hk with hk | hk
      · exact hk
      · rcases h with h | ⟨c, h⟩
        · exact absurd h (hk.1 v)
        · exact absurd h (hk.2 c v))

/-- A section with one event that leaves data and counters alone. -/
theorem lin_sim {a : AbsSt α} {q q' : Q α} {t : Tid} {k : Op α} {f : Fin Cv (Op α) (Res α)} {e : Lin α} {y : QTh α}
    {sigs : List (Sig Cv)} {c : Bool}
    (hR : R kd a q) (hb : (obj kd).body t k a.sh = ⟨{ a.sh with closed := c }, [e], sigs, f⟩) (hs : Step kd q (.lin e) q')
    (h1 : q'.data = q.data) (h2 : q'.closed = c) (h2' : q.closed = true → c = true)
    (h3 : q'.nin = q.nin) (h4 : q'.nout = q.nout) (h5 : q'.th = upd q.th t y)
    (hf : RT kd q' f.th y) (hk : (∀ v, f.th ≠ .ready (.pushW v)) ∧ ∀ c v, f.th ≠ .parked c (.pushW v)) :
    ∃ q', Path (Step kd) q (((obj kd).body t k a.sh).ev.map .lin) q' ∧ R kd (after (obj kd) a t k) q' := by
  refine ⟨q', by rw [hb]; exact .one hs, ?_, ?_, ?_, ?_, ?_, ?_⟩
  · simp only [after, hb, h1, hR.data]
  · simp only [after, hb, h2]
  · rw [h3, h4, h1, hR.cnt]
  · simp only [after, hb]; exact hR.fit
  · exact fun u => RT_th hR (by omega) (by omega) (fun h => by rw [h2, h1]; exact ⟨h2' h, id⟩) h5 (by rw [hb]; exact hf)
  · exact unl_after hR (fun v h => by
      rw [hb] at h
      rcases h with h | ⟨c, h⟩
      · exact absurd h (hk.1 v)
      · exact absurd h (hk.2 c v))

theorem closed_eq {c : Ch α} (h : c.closed = true) : ({ c with closed := true } : Ch α) = c := by
  obtain ⟨d, b⟩ := c; cases h; rfl

theorem sim (a : AbsSt α) (x : AAct (Op α)) (a' : AbsSt α) (es : Trace α) (q : Q α) (hR : R kd a q)
    (hP : ∀ t k, x = .call t k → Op.callable k)
    (hs : a.step (obj kd) x = some (a', es)) : ∃ q', Path (Step kd) q es q' ∧ R kd a' q' := by
  cases x with
  | call t k =>
    obtain ⟨ht, rfl, rfl⟩ := call_inv hs
    have hq : q.th t = .idle := by have := hR.th t; rw [ht] at this; exact this
    have hc := hP t k rfl
    have key : ∀ y q', RK q' k y → q' = { q with th := upd q.th t y } → Step kd q (.call t k) q' →
        ∃ q', Path (Step kd) q [.call t k] q' ∧ R kd { a with th := upd a.th t (.ready k) } q' := by
      rintro y q' hy rfl hst
      refine ⟨_, .one hst, hR.data, hR.closed, hR.cnt, hR.fit, fun u => ?_, fun u v h => ?_⟩
      · by_cases hu : u = t
        · subst hu; simpa [RT] using hy
        · simp only [upd_other _ _ hu]
          exact RT_mono (q := q) (by simp) (by simp) (fun h => by simp [h]) (hR.th u)
      · by_cases hu : u = t
        · subst hu
          simp only [upd_same, Th.ready.injEq, reduceCtorEq, exists_false, or_false] at h
          subst h
          exact absurd hc (by simp [Op.callable])
        · simp only [upd_other _ _ hu] at h
          exact hR.unl u v h
    cases k with
    | push v => exact key (.pushing v) _ rfl rfl (.callPush hq)
    | pop => exact key .popping _ rfl rfl (.callPop hq)
    | next => exact key .looping _ rfl rfl (.callNext hq)
    | close => exact key .closing _ rfl rfl (.callClose hq)
    | isClosed => exact key .askClosed _ rfl rfl (.callIsClosed hq)
    | isEmpty => exact key .askEmpty _ rfl rfl (.callIsEmpty hq)
    | _ => exact absurd hc (by simp [Op.callable])
  | leave t =>
    obtain ⟨r, ht, rfl, rfl⟩ := leave_inv hs
    have hq := hR.th t
    rw [ht] at hq
    have hst : Step kd q (.ret t r) { q with th := upd q.th t .idle } := by
      rcases hq with hq | ⟨rfl, i, hi, hi2⟩
      · exact .ret hq
      · exact .retPush hi hi2
    refine ⟨_, .one hst, hR.data, hR.closed, hR.cnt, hR.fit, fun u => ?_, fun u v h => ?_⟩
    · by_cases hu : u = t
      · subst hu; simp [RT]
      · simp only [upd_other _ _ hu]
        exact RT_mono (q := q) (by simp) (by simp) (fun h => by simp [h]) (hR.th u)
    · by_cases hu : u = t
      · subst hu; simp at h
      · simp only [upd_other _ _ hu] at h
        exact hR.unl u v h
  | run t =>
    obtain ⟨k, ht, rfl, rfl⟩ := run_inv hs
    have hq := hR.th t
    rw [ht] at hq
    have hself : ∀ x, x = q.th t → q = { q with th := upd q.th t x } := by
      rintro x rfl
      have : upd q.th t (q.th t) = q.th := by funext u; by_cases hu : u = t <;> simp [hu]
      rw [this]
    cases k with
    | push v =>
      have hq' : q.th t = .pushing v := hq
      cases hc : a.sh.closed with
      | true =>
        exact lin_sim (c := true) (sigs := []) (f := .ret (.pushed false)) (e := .refused t) hR (by rw [closed_eq hc]; simp [obj, hc]) (.refused hq' (by rw [hR.closed, hc]))
          rfl (by rw [hR.closed, hc]) (by simp) rfl rfl rfl (Or.inl rfl) (by simp [Fin.th])
      | false =>
        cases hk : kd with
        | unlimited =>
          subst hk
          exact enter_sim (f := .ret (.pushed true)) hR hq' (by simp [obj, hc]) hc rfl (Or.inl ⟨rfl, by simp⟩)
        | fixed n =>
          subst hk
          by_cases hn : a.sh.data.length = n
          · exact quiet_sim (f := .park .full (.pushW v)) hR (by simp [obj, hc, hn]) hq (Or.inl (by simp))
          · have := hR.fit
            simp only [fits] at this
            exact enter_sim (f := .ret (.pushed true)) hR hq' (by simp [obj, hc, hn]) hc (by simp [room]; omega)
              (Or.inl ⟨rfl, by simp⟩)
        | sync =>
          subst hk
          by_cases hn : a.sh.data.length = 1
          · exact quiet_sim (f := .park .full (.pushW v)) hR (by simp [obj, hc, hn]) hq (Or.inl (by simp))
          · have := hR.fit
            simp only [fits] at this
            exact enter_sim (f := .park .full .syncW) hR hq' (by simp [obj, hc, hn]) hc (by simp only [room, decide_eq_true_eq]; omega)
              (Or.inr rfl)
    | pushW v =>
      have hq' : q.th t = .pushing v := hq
      cases hk : kd with
      | unlimited => exact absurd hk (hR.unl t v (Or.inl ht))
      | fixed n =>
        subst hk
        cases hc : a.sh.closed with
        | true =>
          exact lin_sim (c := true) (sigs := []) (f := .ret (.pushed false)) (e := .refused t) hR (by rw [closed_eq hc]; simp [obj, hc])
            (.refused hq' (by rw [hR.closed, hc])) rfl (by rw [hR.closed, hc]) (by simp) rfl rfl rfl (Or.inl rfl)
            (by simp [Fin.th])
        | false =>
          by_cases hn : a.sh.data.length < n
          · exact enter_sim (f := .ret (.pushed true)) hR hq' (by simp [obj, hc, hn]) hc (by simp [room, hn])
              (Or.inl ⟨rfl, by simp⟩)
          · exact quiet_sim (f := .park .full (.pushW v)) hR (by simp [obj, hc, hn]) hq (Or.inl (by simp))
      | sync =>
        subst hk
        cases hc : a.sh.closed with
        | true =>
          exact lin_sim (c := true) (sigs := []) (f := .ret (.pushed false)) (e := .refused t) hR (by rw [closed_eq hc]; simp [obj, hc])
            (.refused hq' (by rw [hR.closed, hc])) rfl (by rw [hR.closed, hc]) (by simp) rfl rfl rfl (Or.inl rfl)
            (by simp [Fin.th])
        | false =>
          exact quiet_sim (f := .park .full (.pushW v)) hR (by simp [obj, hc]) hq (Or.inl (by simp))
    | syncW =>
      obtain ⟨i, hi, hi2⟩ := hq
      by_cases hc : a.sh.closed = true ∨ a.sh.data = []
      · refine quiet_sim (f := .ret (.pushed true)) hR (by simp [obj, hc]) (Or.inr ⟨rfl, i, hi, fun _ => ?_⟩)
          (Or.inr (by simp [Fin.th]))
        rcases hc with hc | hc
        · exact Or.inr (by rw [hR.closed, hc])
        · have := hR.cnt
          rw [hR.data, hc] at this
          simp only [List.length_nil] at this
          exact Or.inl (by omega)
      · exact quiet_sim (f := .park .full .syncW) hR (by simp [obj, hc]) ⟨i, hi, hi2⟩ (Or.inr (by simp [Fin.th]))
    | pop | popW =>
      all_goals
        have hq' : q.th t = .popping := hq
        exact popBody_sim (w := .popW) (f := fun o => .ret (.popped o)) hR hq' rfl rfl (by simp)
          (fun v rest hd => ⟨_, .got hq' hd, rfl, rfl, rfl, rfl, _, rfl, Or.inl rfl⟩)
          (fun hc hd => ⟨_, .drained hq' hc hd, rfl, rfl, rfl, rfl, _, rfl, Or.inl rfl⟩) (by simp [Fin.th])
    | next | nextW =>
      all_goals
        have hq' : q.th t = .looping := hq
        exact popBody_sim (w := .nextW) (f := fun o => .next (.nextC o)) hR hq' rfl rfl (by simp)
          (fun v rest hd => ⟨_, .gotNext hq' hd, rfl, rfl, rfl, rfl, _, rfl, rfl, by simp⟩)
          (fun hc hd => ⟨_, .drainedNext hq' hc hd, rfl, rfl, rfl, rfl, _, rfl, rfl, fun _ => ⟨hc, hd⟩⟩)
          (by simp [Fin.th])
    | nextC o =>
      obtain ⟨hq1, hq2⟩ := hq
      cases hc : a.sh.closed with
      | true => exact quiet_sim (f := .next (.nextE o)) hR (by simp [obj, hc]) ⟨hq1, hq2⟩ (Or.inr (by simp [Fin.th]))
      | false =>
        cases o with
        | none => rw [hR.closed, hc] at hq2; simp at hq2
        | some v =>
          exact quiet_sim (f := .ret (.item v)) hR (by simp [obj, hc, enterLoop]) (Or.inl hq1) (Or.inr (by simp [Fin.th]))
    | nextE o =>
      obtain ⟨hq1, hq2⟩ := hq
      cases o with
      | none =>
        have := (hq2 rfl).2
        rw [hR.data] at this
        exact quiet_sim (f := .ret .stop) hR (by simp [obj, this]) (Or.inl hq1) (Or.inr (by simp [Fin.th]))
      | some v =>
        exact quiet_sim (f := .ret (.item v)) hR (by simp [obj, enterLoop]) (Or.inl hq1) (Or.inr (by simp [Fin.th]))
    | close =>
      exact lin_sim (c := true) hR rfl (.closes hq) rfl rfl (by simp) rfl rfl rfl (Or.inl rfl) (by simp [Fin.th])
    | isClosed =>
      have hb : (obj kd).body t (.isClosed : Op α) a.sh =
          ⟨{ a.sh with closed := a.sh.closed }, [.saysClosed t q.closed], [], .ret (.told q.closed)⟩ := by
        rw [hR.closed]; rfl
      exact lin_sim (c := a.sh.closed) hR hb (.saysClosed hq) rfl hR.closed
        (by rw [hR.closed]; exact id) rfl rfl rfl (Or.inl rfl) (by simp [Fin.th])
    | isEmpty =>
      exact lin_sim (c := a.sh.closed) hR rfl (.saysEmpty hq (by simp [hR.data])) rfl hR.closed
        (by rw [hR.closed]; exact id) rfl rfl rfl (Or.inl rfl) (by simp [Fin.th])

theorem R_init : R kd (Abs.init (Ch.init : Ch α)) Q.init := by
  refine ⟨rfl, rfl, rfl, ?_, fun _ => rfl, fun t v h => ?_⟩
  · cases kd <;> simp [fits, Abs.init, Ch.init]
  · simp [Abs.init] at h

theorem sim_reach (kd : Kind) (as : List (Act (Op α))) (s : LowSt α) (es : Trace α)
    (h : runs (Low.step (obj kd)) (Low.init Ch.init) as = some (s, es))
    (hP : ∀ t k, Ev.call t k ∈ es → Op.callable k) : ∃ q, Path (Step kd) Q.init es q ∧ R kd s.abs q :=
  abs_path_cl (obj kd) (fun _ k => Op.callable k) (Step kd) Ch.init Q.init (R kd) R_init
    (fun a x a' es q _ hR hc hs => sim a x a' es q hR hc hs) as s es h hP

end
end Verif.Chan
