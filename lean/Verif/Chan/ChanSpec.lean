import Verif.Chan.ChanSync

/-! # Consequences of the channel specification (helpers for C33 – C39) -/

namespace Verif.Chan
open Monitor
section
variable {α : Type} {kd : Kind}

/-! ## Reading traces -/

/-- The values that entered the channel, in order. (Concerns co_chan.h:21-386.) -/
def accVals : Trace α → List α
  | [] => []
  | .lin (.accepted _ v) :: es => v :: accVals es
  | _ :: es => accVals es

/-- The values received from the channel, in order. (Concerns co_chan.h:21-386.) -/
def gotVals : Trace α → List α
  | [] => []
  | .lin (.got _ v) :: es => v :: gotVals es
  | _ :: es => gotVals es

/-- The coroutine a linearisation event belongs to (specification only). (Concerns co_chan.h:21-386.) -/
def Lin.who : Lin α → Tid
  | .accepted t _ | .refused t | .got t _ | .drained t | .closes t | .saysClosed t _ | .saysEmpty t _ => t

/-- What coroutine `t` did, in order. (Concerns co_chan.h:21-386.) -/
def own (t : Tid) : Trace α → List (Lin α)
  | [] => []
  | .lin e :: es => if e.who = t then e :: own t es else own t es
  | _ :: es => own t es

/-- The event a call with this result stands for. (Concerns co_chan.h:21-386.) -/
inductive Outcome (t : Tid) : Op α → Lin α → Res α → Prop
  | pushTrue (v : α) : Outcome t (.push v) (.accepted t v) (.pushed true)
  | pushFalse (v : α) : Outcome t (.push v) (.refused t) (.pushed false)
  | popSome (v : α) : Outcome t .pop (.got t v) (.popped (some v))
  | popNone : Outcome t .pop (.drained t) (.popped none)
  | item (v : α) : Outcome t .next (.got t v) (.item v)
  | stop : Outcome t .next (.drained t) .stop
  | close : Outcome t .close (.closes t) .ok
  | isClosed (b : Bool) : Outcome t .isClosed (.saysClosed t b) (.told b)
  | isEmpty (b : Bool) : Outcome t .isEmpty (.saysEmpty t b) (.told b)

theorem accVals_append (es fs : Trace α) : accVals (es ++ fs) = accVals es ++ accVals fs := by
  induction es with
  | nil => rfl
  | cons e es ih =>
    rcases e with _ | e | _
    · simp [accVals, ih]
    · cases e <;> simp [accVals, ih]
    · simp [accVals, ih]

theorem gotVals_append (es fs : Trace α) : gotVals (es ++ fs) = gotVals es ++ gotVals fs := by
  induction es with
  | nil => rfl
  | cons e es ih =>
    rcases e with _ | e | _
    · simp [gotVals, ih]
    · cases e <;> simp [gotVals, ih]
    · simp [gotVals, ih]

theorem own_append (t : Tid) (es fs : Trace α) : own t (es ++ fs) = own t es ++ own t fs := by
  induction es with
  | nil => rfl
  | cons e es ih =>
    rcases e with _ | e | _ <;> simp only [List.cons_append, own, ih]
    split <;> simp

/-! ## Consequences of the specification -/

theorem step_facts {q q' : Q α} {e : Ev (Op α) (Res α) (Lin α)} (h : Step kd q e q') :
    q.data ++ accVals [e] = gotVals [e] ++ q'.data ∧ q'.nin = q.nin + (accVals [e]).length ∧
      q'.nout = q.nout + (gotVals [e]).length ∧ (q.closed = true → q'.closed = true ∧ accVals [e] = []) ∧
      (q'.closed = true → q.closed = true ∨ ∃ t, e = .lin (.closes t)) := by
  cases h <;> simp_all [accVals, gotVals]

theorem path_facts {q q' : Q α} {es : Trace α} (h : Path (Step kd) q es q') :
    q.data ++ accVals es = gotVals es ++ q'.data ∧ q'.nin = q.nin + (accVals es).length ∧
      q'.nout = q.nout + (gotVals es).length ∧ (q.closed = true → q'.closed = true ∧ accVals es = []) ∧
      (q'.closed = true → q.closed = true ∨ ∃ t, .lin (.closes t) ∈ es) := by
  induction h with
  | nil => simp [accVals, gotVals]
  | @cons q q1 q2 e es h hs ih =>
    obtain ⟨i1, i2, i3, i4, i5⟩ := ih
    obtain ⟨j1, j2, j3, j4, j5⟩ := step_facts h
    have ha : accVals (e :: es) = accVals [e] ++ accVals es := accVals_append [e] es
    have hg : gotVals (e :: es) = gotVals [e] ++ gotVals es := gotVals_append [e] es
    refine ⟨?_, ?_, ?_, fun hc => ?_, fun hc => ?_⟩
    · rw [ha, hg, ← List.append_assoc, j1, List.append_assoc, i1, List.append_assoc]
    · rw [ha, List.length_append]; omega
    · rw [hg, List.length_append]; omega
    · have := j4 hc
      have := i4 this.1
      rw [ha]; simp_all
    · rcases i5 hc with h | ⟨t, h⟩
      · rcases j5 h with h | ⟨t, rfl⟩
        · exact Or.inl h
        · exact Or.inr ⟨t, by simp⟩
      · exact Or.inr ⟨t, by simp [h]⟩

/-- The state of a coroutine that has just made call `k`. (Concerns co_chan.h:21-386.) -/
def start : Op α → QTh α
  | .push v => .pushing v
  | .pop => .popping
  | .next => .looping
  | .close => .closing
  | .isClosed => .askClosed
  | .isEmpty => .askEmpty
  | _ => .idle

/-- In the middle of call `k`, having done `L`. (Concerns co_chan.h:21-386.) -/
def Mid (t : Tid) (k : Op α) (L : List (Lin α)) (q : Q α) : Prop :=
  (L = [] ∧ q.th t = start k ∧ start k ≠ .idle) ∨ ∃ e r, L = [e] ∧ Outcome t k e r ∧
    (q.th t = .finished r ∨ r = .pushed true ∧ ∃ i, q.th t = .entered i)

theorem mid_step {t : Tid} {k : Op α} {L : List (Lin α)} {q q' : Q α} {e : Ev (Op α) (Res α) (Lin α)}
    (h : Step kd q e q') (hm : Mid t k L q) (hr : ∀ r, e ≠ .ret t r) : Mid t k (L ++ own t [e]) q' := by
  have other : ∀ x y, x ≠ t → q'.th = upd q.th x y → own t [e] = [] → Mid t k (L ++ own t [e]) q' := by
    intro x y hx hth ho
    rw [ho, List.append_nil]
    have : q'.th t = q.th t := by rw [hth]; exact upd_other _ _ (fun h => hx h.symm)
    simpa only [Mid, this] using hm
  have busy : q.th t ≠ .idle := by
    rcases hm with ⟨_, h1, h2⟩ | ⟨_, _, _, _, h1 | ⟨_, _, h1⟩⟩
    · rw [h1]; exact h2
    · rw [h1]; simp
    · rw [h1]; simp
  -- an event of `t` itself: it was the first
  have mine : ∀ l, e = .lin l → l.who = t → (∀ r, q.th t ≠ .finished r) → (∀ i, q.th t ≠ .entered i) →
      (∃ r, (q.th t = start k → Outcome t k l r) ∧ (q'.th t = .finished r ∨ r = .pushed true ∧ ∃ i, q'.th t = .entered i)) →
      Mid t k (L ++ own t [e]) q' := by
    rintro l rfl hw hf he ⟨r, ho, hq'⟩
    rcases hm with ⟨rfl, h1, h2⟩ | ⟨_, _, _, _, h1 | ⟨_, i, h1⟩⟩
    · exact Or.inr ⟨l, r, by simp [own, hw], ho h1, hq'⟩
    · exact absurd h1 (hf _)
    · exact absurd h1 (he i)
  have st : ∀ y, start k = y → y ≠ .idle → (∀ v, y = .pushing v → k = .push v) ∧ (y = .popping → k = .pop) ∧
      (y = .looping → k = .next) ∧ (y = .closing → k = .close) ∧ (y = .askClosed → k = .isClosed) ∧
      (y = .askEmpty → k = .isEmpty) := by
    rintro y rfl
    cases k <;> simp [start]
  cases h with
  | @callPush x v h =>
    by_cases hx : x = t
    · subst hx; exact absurd h busy
    · exact other x _ hx rfl rfl
  | @callPop x h =>
    by_cases hx : x = t
    · subst hx; exact absurd h busy
    · exact other x _ hx rfl rfl
  | @callNext x h =>
    by_cases hx : x = t
    · subst hx; exact absurd h busy
    · exact other x _ hx rfl rfl
  | @callClose x h =>
    by_cases hx : x = t
    · subst hx; exact absurd h busy
    · exact other x _ hx rfl rfl
  | @callIsClosed x h =>
    by_cases hx : x = t
    · subst hx; exact absurd h busy
    · exact other x _ hx rfl rfl
  | @callIsEmpty x h =>
    by_cases hx : x = t
    · subst hx; exact absurd h busy
    · exact other x _ hx rfl rfl
  | @accepted x v h ho hroom =>
    by_cases hx : x = t
    · subst hx
      exact mine _ rfl rfl (by simp [h]) (by simp [h]) ⟨.pushed true, fun hs => by
        rw [(st _ (hs.symm.trans h) (by simp)).1 v rfl]; exact .pushTrue v, Or.inr ⟨rfl, _, by simp; rfl⟩⟩
    · exact other x _ hx rfl (by simp [own, Lin.who, hx])
  | @refused x v h hc =>
    by_cases hx : x = t
    · subst hx
      exact mine _ rfl rfl (by simp [h]) (by simp [h]) ⟨.pushed false, fun hs => by
        rw [(st _ (hs.symm.trans h) (by simp)).1 v rfl]; exact .pushFalse v, Or.inl (by simp)⟩
    · exact other x _ hx rfl (by simp [own, Lin.who, hx])
  | @got x v rest h hd =>
    by_cases hx : x = t
    · subst hx
      exact mine _ rfl rfl (by simp [h]) (by simp [h]) ⟨.popped (some v), fun hs => by
        rw [(st _ (hs.symm.trans h) (by simp)).2.1 rfl]; exact .popSome v, Or.inl (by simp)⟩
    · exact other x _ hx rfl (by simp [own, Lin.who, hx])
  | @gotNext x v rest h hd =>
    by_cases hx : x = t
    · subst hx
      exact mine _ rfl rfl (by simp [h]) (by simp [h]) ⟨.item v, fun hs => by
        rw [(st _ (hs.symm.trans h) (by simp)).2.2.1 rfl]; exact .item v, Or.inl (by simp)⟩
    · exact other x _ hx rfl (by simp [own, Lin.who, hx])
  | @drained x h hc hd =>
    by_cases hx : x = t
    · subst hx
      exact mine _ rfl rfl (by simp [h]) (by simp [h]) ⟨.popped none, fun hs => by
        rw [(st _ (hs.symm.trans h) (by simp)).2.1 rfl]; exact .popNone, Or.inl (by simp)⟩
    · exact other x _ hx rfl (by simp [own, Lin.who, hx])
  | @drainedNext x h hc hd =>
    by_cases hx : x = t
    · subst hx
      exact mine _ rfl rfl (by simp [h]) (by simp [h]) ⟨.stop, fun hs => by
        rw [(st _ (hs.symm.trans h) (by simp)).2.2.1 rfl]; exact .stop, Or.inl (by simp)⟩
    · exact other x _ hx rfl (by simp [own, Lin.who, hx])
  | @closes x h =>
    by_cases hx : x = t
    · subst hx
      exact mine _ rfl rfl (by simp [h]) (by simp [h]) ⟨.ok, fun hs => by
        rw [(st _ (hs.symm.trans h) (by simp)).2.2.2.1 rfl]; exact .close, Or.inl (by simp)⟩
    · exact other x _ hx rfl (by simp [own, Lin.who, hx])
  | @saysClosed x h =>
    by_cases hx : x = t
    · subst hx
      exact mine _ rfl rfl (by simp [h]) (by simp [h]) ⟨.told q.closed, fun hs => by
        rw [(st _ (hs.symm.trans h) (by simp)).2.2.2.2.1 rfl]; exact .isClosed _, Or.inl (by simp)⟩
    · exact other x _ hx rfl (by simp [own, Lin.who, hx])
  | @saysEmpty x b h hb =>
    by_cases hx : x = t
    · subst hx
      exact mine _ rfl rfl (by simp [h]) (by simp [h]) ⟨.told b, fun hs => by
        rw [(st _ (hs.symm.trans h) (by simp)).2.2.2.2.2 rfl]; exact .isEmpty _, Or.inl (by simp)⟩
    · exact other x _ hx rfl (by simp [own, Lin.who, hx])
  | @retPush x i h hs =>
    by_cases hx : x = t
    · subst hx; exact absurd rfl (hr _)
    · exact other x _ hx rfl rfl
  | @ret x r h =>
    by_cases hx : x = t
    · subst hx; exact absurd rfl (hr _)
    · exact other x _ hx rfl rfl

theorem mid_path {t : Tid} {k : Op α} {L : List (Lin α)} {q q' : Q α} {es : Trace α}
    (h : Path (Step kd) q es q') (hm : Mid t k L q) (hr : ∀ r, .ret t r ∉ es) : Mid t k (L ++ own t es) q' := by
  induction h generalizing L with
  | nil => simpa [own] using hm
  | @cons q q1 q2 e es h hs ih =>
    have h1 := mid_step h hm (fun r he => hr r (by simp [he]))
    have h2 := ih h1 (fun r hm => hr r (by simp [hm]))
    rwa [List.append_assoc, ← own_append, List.singleton_append] at h2

/-- A completed call: exactly one event, and the result says which. -/
theorem matched {t : Tid} {k : Op α} {r : Res α} {q q' : Q α} {mid : Trace α}
    (h : Path (Step kd) q (.call t k :: mid ++ [.ret t r]) q') (hr : ∀ r, .ret t r ∉ mid) :
    ∃ e, own t mid = [e] ∧ Outcome t k e r := by
  rw [List.cons_append] at h
  cases h with
  | @cons _ q1 _ _ _ h1 h2 =>
    obtain ⟨q2, h3, h4⟩ := h2.split
    have hm : Mid t k [] q1 := by
      refine Or.inl ⟨rfl, ?_⟩
      cases h1 <;> simp [start]
    have h5 := mid_path h3 hm hr
    rw [List.nil_append] at h5
    cases h4 with
    | cons h4 _ =>
      rcases h5 with ⟨h6, h7, h8⟩ | ⟨e, r', h6, h7, h8⟩
      · exfalso
        cases h4 with
        | retPush h9 _ => rw [h7] at h9; cases k <;> simp [start] at h9
        | ret h9 => rw [h7] at h9; cases k <;> simp [start] at h9
      · refine ⟨e, h6, ?_⟩
        cases h4 with
        | retPush h9 _ =>
          rcases h8 with h8 | ⟨rfl, _⟩
          · rw [h8] at h9; cases h9
          · exact h7
        | ret h9 =>
          rcases h8 with h8 | ⟨_, i, h8⟩
          · rw [h8] at h9; cases h9; exact h7
          · rw [h8] at h9; cases h9

end
end Verif.Chan
