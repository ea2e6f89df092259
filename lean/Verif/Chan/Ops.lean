import Verif.Chan.ChanProps

/-! # C123: the operators of a channel

`ch < v`, `ch > x`, `ch << v << w ...`, `ch >> x >> y ...` (include/cocpp/event/co_chan.h:115-157) in the executions of the channel of C33 – C39, and the comparison of iterators (379-396).

Left out: copies of values that throw (C112); that `value = ch.pop().value()` may also throw in the assignment. -/

namespace Verif.Chan
open Monitor
section
variable {α : Type} {kd : Kind}

/-! ## Expressions -/

/-- An expression: `ch < v`, `ch > x`, a chain of `<<` with these values, a chain of `>>` with this many variables (co_chan.h:115-157). -/
inductive Expr (α : Type)
  | lt (v : α)
  | gt
  | shl (vs : List α)
  | shr (n : Nat)
  deriving DecidableEq, Repr

/-- What the program sees of an expression: a truth value, the channel itself, or an exception (`std::bad_optional_access`); and the values its variables got, in order. (Concerns co_chan.h:69-396.) -/
inductive Seen (α : Type)
  | bool (b : Bool) (xs : List α)
  | chan (xs : List α)
  | threw (xs : List α)
  deriving DecidableEq, Repr

/-- The calls an expression makes as long as nothing is thrown (co_chan.h:130, 136, 148, 155). A chain is evaluated from left to right. -/
def Expr.calls : Expr α → List (Op α)
  | .lt v => [.push v]
  | .gt => [.pop]
  | .shl vs => vs.map .push
  | .shr n => List.replicate n .pop

/-- One more variable got a value. (Concerns co_chan.h:69-396.) -/
def Seen.cons (x : α) : Seen α → Seen α
  | .bool b xs => .bool b (x :: xs)
  | .chan xs => .chan (x :: xs)
  | .threw xs => .threw (x :: xs)

/-- A chain of `>>` with the results of its calls: `ch.pop().value()` throws if there is no value (co_chan.h:152-157). -/
def shrSeen : Nat → List (Res α) → Option (Seen α)
  | 0, [] => some (.chan [])
  | n + 1, .popped (some x) :: rs => (shrSeen n rs).map (.cons x)
  | _ + 1, [.popped none] => some (.threw [])
  | _, _ => none

/-- What the program sees, from the results of the calls; `none`: these are not the results of a complete evaluation. `operator<` returns the result of `push` (co_chan.h:127-131), `operator>` assigns
if there is a value (133-143), `operator<<` ignores the result (145-150). -/
def Expr.seen : Expr α → List (Res α) → Option (Seen α)
  | .lt _, [.pushed b] => some (.bool b [])
  | .gt, [.popped (some x)] => some (.bool true [x])
  | .gt, [.popped none] => some (.bool false [])
  | .shl vs, rs => if rs.length = vs.length then some (.chan []) else none
  | .shr n, rs => shrSeen n rs
  | _, _ => none

/-- A thread evaluates these expressions one after the other; `h` are its calls with their results, the last list what it sees. An exception ends only its expression. (Concerns co_chan.h:69-396.) -/
inductive Runs : List (Expr α) → List (Op α × Res α) → List (Seen α) → Prop
  | nil : Runs [] [] []
  | cons {e : Expr α} {o : Seen α} {es : List (Expr α)} {h h' : List (Op α × Res α)} {os : List (Seen α)}
      (hv : e.seen (h.map (·.2)) = some o) (hk : h.map (·.1) = e.calls.take h.length) (hr : Runs es h' os) : Runs (e :: es) (h ++ h') (o :: os)

/-! ## The calls of a thread in an execution -/

/-- The completed calls of thread `t` with their results, in order; the second argument is the call it is in. (Concerns co_chan.h:69-396.) -/
def hist (t : Tid) : Option (Op α) → Trace α → List (Op α × Res α)
  | _, [] => []
  | p, .call u k :: es => if u = t then hist t (some k) es else hist t p es
  | p, .lin _ :: es => hist t p es
  | p, .ret u r :: es =>
    if u = t then
      match p with
      | some k => (k, r) :: hist t none es
      | none => hist t none es
    else hist t p es

/-- The call thread `t` is in at the end. (Concerns co_chan.h:69-396.) -/
def inCall (t : Tid) : Option (Op α) → Trace α → Option (Op α)
  | p, [] => p
  | p, .call u k :: es => if u = t then inCall t (some k) es else inCall t p es
  | p, .lin _ :: es => inCall t p es
  | p, .ret u _ :: es => if u = t then inCall t none es else inCall t p es

/-! ## Specification -/

/-- What evaluating an expression may do to the channel, and what the program sees of it. (Concerns co_chan.h:69-396.) -/
inductive Fit (t : Tid) : Expr α → Seen α → List (Lin α) → Prop
  | ltTrue (v : α) : Fit t (.lt v) (.bool true []) [.accepted t v]
  | ltFalse (v : α) : Fit t (.lt v) (.bool false []) [.refused t]
  | gtTrue (x : α) : Fit t .gt (.bool true [x]) [.got t x]
  | gtFalse : Fit t .gt (.bool false []) [.drained t]
  | shl (vs : List α) (k : Nat) (hk : k ≤ vs.length) :
      Fit t (.shl vs) (.chan []) ((vs.take k).map (.accepted t) ++ List.replicate (vs.length - k) (.refused t))
  | shr (xs : List α) : Fit t (.shr xs.length) (.chan xs) (xs.map (.got t))
  | shrThrow (n : Nat) (xs : List α) (hn : xs.length < n) : Fit t (.shr n) (.threw xs) (xs.map (.got t) ++ [.drained t])

/-- The same for several expressions. (Concerns co_chan.h:69-396.) -/
inductive Fits (t : Tid) : List (Expr α) → List (Seen α) → List (Lin α) → Prop
  | nil : Fits t [] [] []
  | cons {e : Expr α} {o : Seen α} {l : List (Lin α)} {es : List (Expr α)} {os : List (Seen α)} {ls : List (Lin α)}
      (h : Fit t e o l) (hs : Fits t es os ls) : Fits t (e :: es) (o :: os) (l ++ ls)

/-! ## Proofs -/

/-- The event that belongs to a call and its result (proof device). (Concerns co_chan.h:69-396.) -/
def evOf (t : Tid) : Op α × Res α → Option (Lin α)
  | (.push v, .pushed true) => some (.accepted t v)
  | (.push _, .pushed false) => some (.refused t)
  | (.pop, .popped (some v)) => some (.got t v)
  | (.pop, .popped none) => some (.drained t)
  | (.next, .item v) => some (.got t v)
  | (.next, .stop) => some (.drained t)
  | (.close, .ok) => some (.closes t)
  | (.isClosed, .told b) => some (.saysClosed t b)
  | (.isEmpty, .told b) => some (.saysEmpty t b)
  | _ => none

theorem evOf_outcome {t : Tid} {k : Op α} {e : Lin α} {r : Res α} (h : Outcome t k e r) : evOf t (k, r) = some e := by
  cases h <;> rfl

/-- Thread `t` is outside all calls, or in this one having done `L` (proof device). (Concerns co_chan.h:69-396.) -/
def At (t : Tid) (L : List (Lin α)) (q : Q α) : Option (Op α) → Prop
  | none => L = [] ∧ q.th t = .idle
  | some k => Mid t k L q

theorem at_step {t : Tid} {p : Option (Op α)} {L : List (Lin α)} {q q1 : Q α} {e : Ev (Op α) (Res α) (Lin α)}
    (h : Step kd q e q1) (ha : At t L q p) (hn : ∀ k, e ≠ .call t k) (hr : ∀ r, e ≠ .ret t r) : At t (L ++ own t [e]) q1 p := by
  cases p with
  | some k => exact mid_step h ha hr
  | none =>
    obtain ⟨rfl, hi⟩ := ha
    have key : own t [e] = [] ∧ q1.th t = .idle := by
      cases h with
      | @callPush x v hx | @callPop x hx | @callNext x hx | @callClose x hx | @callIsClosed x hx | @callIsEmpty x hx =>
        all_goals
          by_cases hxt : t = x
          · subst hxt; exact absurd rfl (hn _)
          · simp [own, upd_apply, hxt, hi]
      | @retPush x i hx hs =>
        by_cases hxt : t = x
        · subst hxt; exact absurd rfl (hr _)
        · simp [own, upd_apply, hxt, hi]
      | @ret x r hx =>
        by_cases hxt : t = x
        · subst hxt; exact absurd rfl (hr _)
        · simp [own, upd_apply, hxt, hi]
      | @accepted x _ hx | @refused x _ hx | @got x _ _ hx | @gotNext x _ _ hx | @drained x hx | @drainedNext x hx | @closes x hx | @saysClosed x hx | @saysEmpty x _ hx =>
        all_goals
          by_cases hxt : t = x
          · subst hxt; rw [hi] at hx; cases hx
          · have hxt' : x ≠ t := fun h => hxt h.symm
            simp [own, upd_apply, hxt, hi, Lin.who, hxt']
    exact ⟨by simp [key.1], key.2⟩

theorem hist_path {t : Tid} {p : Option (Op α)} {L : List (Lin α)} {q q' : Q α} {es : Trace α} (h : Path (Step kd) q es q')
    (ha : At t L q p) :
    ∃ L', L ++ own t es = (hist t p es).filterMap (evOf t) ++ L' ∧ At t L' q' (inCall t p es) ∧
      ∀ x ∈ hist t p es, ∃ e, Outcome t x.1 e x.2 := by
  induction h generalizing p L with
  | nil => exact ⟨L, by simp [own, hist], by simpa [inCall] using ha, by simp [hist]⟩
  | @cons q q1 q2 e es h hs ih =>
    have hown : own t (e :: es) = own t [e] ++ own t es := own_append t [e] es
    by_cases hn : ∃ k, e = .call t k
    · obtain ⟨k, rfl⟩ := hn
      have hidle : q.th t = .idle ∧ Mid t k [] q1 := by
        cases h <;> refine ⟨by assumption, Or.inl ⟨rfl, ?_⟩⟩ <;> simp [start]
      have hL : L = [] := by
        cases p with
        | none => exact ha.1
        | some k' =>
          rcases ha with ⟨_, h1, h2⟩ | ⟨_, _, _, _, h1 | ⟨_, _, h1⟩⟩
          · rw [hidle.1] at h1; exact absurd h1.symm h2
          · rw [hidle.1] at h1; cases h1
          · rw [hidle.1] at h1; cases h1
      obtain ⟨L', h1, h2, h3⟩ := ih (p := some k) (L := []) hidle.2
      refine ⟨L', ?_, by simpa [inCall] using h2, by simpa [hist] using h3⟩
      rw [hown, hL]; simpa [own, hist] using h1
    · by_cases hr : ∃ r, e = .ret t r
      · obtain ⟨r, rfl⟩ := hr
        have hi1 : q1.th t = .idle := by cases h <;> simp
        have hb : q.th t = .finished r ∨ (r = .pushed true ∧ ∃ i, q.th t = .entered i) := by
          cases h with
          | retPush hx hs => exact Or.inr ⟨rfl, _, hx⟩
          | ret hx => exact Or.inl hx
        cases p with
        | none =>
          exfalso
          rcases hb with hb | ⟨_, i, hb⟩ <;> (rw [ha.2] at hb; cases hb)
        | some k =>
          have hout : ∃ e, L = [e] ∧ Outcome t k e r := by
            rcases ha with ⟨_, h1, h2⟩ | ⟨e, r', hL, ho, h1 | ⟨rfl, i, h1⟩⟩
            · exfalso
              rcases hb with hb | ⟨_, i, hb⟩ <;> (rw [h1] at hb; cases k <;> simp [start] at hb)
            · rcases hb with hb | ⟨_, i, hb⟩
              · rw [h1] at hb; cases hb; exact ⟨e, hL, ho⟩
              · rw [h1] at hb; cases hb
            · rcases hb with hb | ⟨rfl, _⟩
              · rw [h1] at hb; cases hb
              · exact ⟨e, hL, ho⟩
          obtain ⟨e, rfl, ho⟩ := hout
          obtain ⟨L', h1, h2, h3⟩ := ih (p := none) (L := []) ⟨rfl, hi1⟩
          refine ⟨L', ?_, by simpa [inCall] using h2, ?_⟩
          · rw [hown]
            simp only [List.nil_append] at h1
            simp [own, hist, evOf_outcome ho, h1]
          · intro x hx
            simp only [hist, if_true, List.mem_cons] at hx
            rcases hx with rfl | hx
            · exact ⟨e, ho⟩
            · exact h3 x hx
      · have h1 := at_step h ha (fun k hk => hn ⟨k, hk⟩) (fun r hk => hr ⟨r, hk⟩)
        obtain ⟨L', h2, h3, h4⟩ := ih h1
        have hh : hist t p (e :: es) = hist t p es ∧ inCall t p (e :: es) = inCall t p es := by
          rcases e with ⟨u, k⟩ | l | ⟨u, r⟩
          · have : u ≠ t := fun hu => hn ⟨k, by rw [hu]⟩
            simp [hist, inCall, this]
          · simp [hist, inCall]
          · have : u ≠ t := fun hu => hr ⟨r, by rw [hu]⟩
            simp [hist, inCall, this]
        rw [hh.1, hh.2, hown]
        exact ⟨L', by rw [← List.append_assoc]; exact h2, h3, h4⟩

theorem own_cut {t : Tid} {e : Lin α} {es : Trace α} {A B : List (Lin α)} (h : own t es = A ++ e :: B) :
    ∃ e1 e2, es = e1 ++ .lin e :: e2 ∧ own t e2 = B := by
  induction es generalizing A with
  | nil => simp [own] at h
  | cons x es ih =>
    have skip : own t es = A ++ e :: B → ∃ e1 e2, x :: es = e1 ++ .lin e :: e2 ∧ own t e2 = B := by
      intro h
      obtain ⟨e1, e2, rfl, h2⟩ := ih h
      exact ⟨x :: e1, e2, rfl, h2⟩
    rcases x with _ | l | _
    · exact skip (by simpa [own] using h)
    · by_cases hw : l.who = t
      · simp only [own, hw, if_true] at h
        cases A with
        | nil =>
          simp only [List.nil_append, List.cons.injEq] at h
          exact ⟨[], es, by rw [h.1]; rfl, h.2⟩
        | cons a A =>
          simp only [List.cons_append, List.cons.injEq] at h
          obtain ⟨e1, e2, rfl, h2⟩ := ih h.2
          exact ⟨.lin l :: e1, e2, rfl, h2⟩
      · exact skip (by simpa [own, hw] using h)
    · exact skip (by simpa [own] using h)

theorem own_acc {t : Tid} {v : α} {es : Trace α} (h : Lin.accepted t v ∈ own t es) : v ∈ accVals es := by
  induction es with
  | nil => simp [own] at h
  | cons e es ih =>
    rcases e with _ | l | _
    · exact ih (by simpa [own] using h)
    · simp only [own] at h
      split at h
      · rcases List.mem_cons.1 h with rfl | h
        · simp [accVals]
        · have := ih h; cases l <;> simp [accVals, this]
      · have := ih h; cases l <;> simp [accVals, this]
    · exact ih (by simpa [own] using h)

/-- Once a push of `t` was refused, no other push of `t` is accepted. -/
theorem refused_last {t : Tid} {q q' : Q α} {es : Trace α} (h : Path (Step kd) q es q') {A B : List (Lin α)}
    (ho : own t es = A ++ .refused t :: B) (v : α) : .accepted t v ∉ B := by
  intro hm
  obtain ⟨e1, e2, rfl, rfl⟩ := own_cut ho
  obtain ⟨q1, _, h2⟩ := h.split
  cases h2 with
  | cons h3 h4 =>
    have hc : ∀ q2, Step kd q1 (.lin (.refused t)) q2 → q2.closed = true := by
      intro q2 hs; cases hs with | refused _ hc => exact hc
    have := ((path_facts h4).2.2.2.1 (hc _ h3)).2
    have hin := own_acc hm
    rw [this] at hin
    cases hin

theorem shl_fit {t : Tid} (vs : List α) (h : List (Op α × Res α)) (hk : h.map (·.1) = vs.map .push)
    (ho : ∀ x ∈ h, ∃ e, Outcome t x.1 e x.2)
    (hs : ∀ A B v, h.filterMap (evOf t) = A ++ .refused t :: B → .accepted t v ∉ B) :
    ∃ k, k ≤ vs.length ∧ h.filterMap (evOf t) = (vs.take k).map (.accepted t) ++ List.replicate (vs.length - k) (.refused t) := by
  induction h generalizing vs with
  | nil => 
    cases vs with
    | nil => exact ⟨0, by simp, rfl⟩
    | cons => simp at hk
  | cons x h ih =>
    obtain ⟨op, r⟩ := x
    cases vs with
    | nil => simp at hk
    | cons v vs =>
      simp only [List.map_cons, List.cons.injEq] at hk
      obtain ⟨rfl, hk⟩ := hk
      obtain ⟨e, hout⟩ := ho _ List.mem_cons_self
      have ho' : ∀ x ∈ h, ∃ e, Outcome t x.1 e x.2 := fun x hx => ho x (by simp [hx])
      have hev := evOf_outcome hout
      simp only [List.filterMap_cons, hev] at hs ⊢
      obtain ⟨k, hkl, hk2⟩ := ih vs hk ho' (fun A B w hAB => hs (e :: A) B w (by simp [hAB]))
      cases hout with
      | pushTrue => exact ⟨k + 1, by simp; omega, by simp [hk2]⟩
      | pushFalse =>
        have hk0 : (vs.take k).map (Lin.accepted t) = [] := by
          cases hc : (vs.take k) with
          | nil => rfl
          | cons w ws =>
            exfalso
            refine hs [] _ w rfl ?_
            rw [hk2, hc]; simp
        refine ⟨0, by simp, ?_⟩
        rw [hk2, hk0]
        have hl : (vs.take k).length = 0 := by
          have := congrArg List.length hk0
          simpa using this
        have : k = 0 ∨ vs = [] := by
          rw [List.length_take] at hl
          rcases Nat.eq_zero_or_pos k with h | h
          · exact .inl h
          · exact .inr (List.length_eq_zero_iff.1 (by omega))
        rcases this with rfl | rfl
        · simp [List.replicate_succ]
        · simp

theorem shr_fit {t : Tid} (n : Nat) (h : List (Op α × Res α)) (o : Seen α) (hv : shrSeen n (h.map (·.2)) = some o)
    (hk : h.map (·.1) = (List.replicate n .pop).take h.length) (ho : ∀ x ∈ h, ∃ e, Outcome t x.1 e x.2) :
    Fit t (.shr n) o (h.filterMap (evOf t)) := by
  induction h generalizing n o with
  | nil =>
    cases n with
    | zero => simp [shrSeen] at hv; subst hv; exact Fit.shr []
    | succ n => simp [shrSeen] at hv
  | cons x h ih =>
    obtain ⟨op, r⟩ := x
    cases n with
    | zero => simp [shrSeen] at hv
    | succ n =>
      simp only [List.replicate_succ, List.length_cons, List.take_succ_cons, List.map_cons, List.cons.injEq] at hk
      obtain ⟨rfl, hk⟩ := hk
      obtain ⟨e, hout⟩ := ho _ List.mem_cons_self
      have ho' : ∀ x ∈ h, ∃ e, Outcome t x.1 e x.2 := fun x hx => ho x (by simp [hx])
      simp only [List.filterMap_cons, evOf_outcome hout]
      cases hout with
      | popSome v =>
        simp only [List.map_cons, shrSeen, Option.map_eq_some_iff] at hv
        obtain ⟨o', hv', rfl⟩ := hv
        have := ih n o' hv' hk ho'
        generalize h.filterMap (evOf t) = l at this
        cases this with
        | shr xs => exact Fit.shr (v :: xs)
        | shrThrow n xs hn => exact Fit.shrThrow (n + 1) (v :: xs) (by simpa using hn)
      | popNone =>
        cases h with
        | nil => simp [shrSeen] at hv; subst hv; exact Fit.shrThrow (n + 1) [] (by simp)
        | cons y h => simp [shrSeen] at hv

theorem runs_fits {t : Tid} {prog : List (Expr α)} {h : List (Op α × Res α)} {os : List (Seen α)} (hr : Runs prog h os)
    (ho : ∀ x ∈ h, ∃ e, Outcome t x.1 e x.2)
    (hs : ∀ A B v, h.filterMap (evOf t) = A ++ .refused t :: B → .accepted t v ∉ B) :
    Fits t prog os (h.filterMap (evOf t)) := by
  induction hr with
  | nil => exact .nil
  | @cons e o es h h' os hv hk hr ih =>
    rw [List.filterMap_append] at hs ⊢
    have ho1 : ∀ x ∈ h, ∃ e, Outcome t x.1 e x.2 := fun x hx => ho x (by simp [hx])
    refine .cons ?_ (ih (fun x hx => ho x (by simp [hx])) (fun A B v hAB => hs (h.filterMap (evOf t) ++ A) B v (by simp [hAB])))
    have hs1 : ∀ A B v, h.filterMap (evOf t) = A ++ .refused t :: B → .accepted t v ∉ B := by
      intro A B v hAB hm
      exact hs A (B ++ h'.filterMap (evOf t)) v (by rw [hAB]; simp) (by simp [hm])
    cases e with
    | lt v =>
      cases h with
      | nil => simp [Expr.seen] at hv
      | cons x h =>
        cases h with
        | cons y h => simp [Expr.calls] at hk
        | nil =>
          obtain ⟨op, r⟩ := x
          simp only [Expr.calls, List.map_cons, List.map_nil, List.length_cons, List.length_nil, Nat.zero_add, List.take_succ_cons, List.take_zero, List.cons.injEq, and_true] at hk
          subst hk
          obtain ⟨e, hout⟩ := ho1 _ List.mem_cons_self
          simp only [List.filterMap_cons, evOf_outcome hout, List.filterMap_nil]
          cases hout <;> simp only [List.map_cons, List.map_nil, Expr.seen, Option.some.injEq] at hv <;> subst hv
          · exact .ltTrue v
          · exact .ltFalse v
    | gt =>
      cases h with
      | nil => simp [Expr.seen] at hv
      | cons x h =>
        cases h with
        | cons y h => simp [Expr.calls] at hk
        | nil =>
          obtain ⟨op, r⟩ := x
          simp only [Expr.calls, List.map_cons, List.map_nil, List.length_cons, List.length_nil, Nat.zero_add, List.take_succ_cons, List.take_zero, List.cons.injEq, and_true] at hk
          subst hk
          obtain ⟨e, hout⟩ := ho1 _ List.mem_cons_self
          simp only [List.filterMap_cons, evOf_outcome hout, List.filterMap_nil]
          cases hout <;> simp only [List.map_cons, List.map_nil, Expr.seen, Option.some.injEq] at hv <;> subst hv
          · exact .gtTrue _
          · exact .gtFalse
    | shl vs =>
      simp only [Expr.seen, List.length_map, Option.ite_none_right_eq_some, Option.some.injEq] at hv
      obtain ⟨hlen, rfl⟩ := hv
      obtain ⟨k, h1, h2⟩ := shl_fit vs h (by rw [hk, hlen]; exact List.take_of_length_le (by simp [Expr.calls])) ho1 hs1
      rw [h2]
      exact .shl vs k h1
    | shr n => exact shr_fit n h o (by simpa [Expr.seen] using hv) (by simpa [Expr.calls] using hk) ho1

/-! ## C123 -/

/-- C123: whatever else happens on the channel, a thread that evaluates these expressions and sees `os` has done to the channel exactly what `Fit` says of each of them, in order. -/
theorem C123_operators (as : List (Act (Op α))) (s : LowSt α) (es : Trace α) (h : Exec kd as s es) (hc : Client es) (t : Tid)
    (prog : List (Expr α)) (os : List (Seen α)) (hr : Runs prog (hist t none es) os) (hd : inCall t none es = none) :
    Fits t prog os (own t es) := by
  obtain ⟨q, h1, _⟩ := sim_reach kd as s es h hc
  obtain ⟨L', h2, h3, h4⟩ := hist_path (t := t) (p := none) (L := []) h1 ⟨rfl, rfl⟩
  rw [hd] at h3
  obtain ⟨rfl, _⟩ := h3
  rw [List.nil_append, List.append_nil] at h2
  have := runs_fits hr h4 (fun A B v hAB => refused_last h1 (by rw [h2]; exact hAB) v)
  rwa [← h2] at this

/-- The values the variables of the program got, in order. (Concerns co_chan.h:69-396.) -/
def assigned : List (Seen α) → List α
  | [] => []
  | .bool _ xs :: os | .chan xs :: os | .threw xs :: os => xs ++ assigned os

/-- The values thread `t` took out of the channel. (Concerns co_chan.h:69-396.) -/
def taken (l : List (Lin α)) : List α := l.filterMap (fun e => match e with | .got _ v => some v | _ => none)

/-- The values thread `t` put into the channel. (Concerns co_chan.h:69-396.) -/
def entered (l : List (Lin α)) : List α := l.filterMap (fun e => match e with | .accepted _ v => some v | _ => none)

theorem fit_taken {t : Tid} {e : Expr α} {o : Seen α} {l : List (Lin α)} (h : Fit t e o l) : taken l = assigned [o] := by
  have hm : ∀ xs : List α, taken (xs.map (Lin.got t)) = xs := by
    intro xs; induction xs with
    | nil => rfl
    | cons x xs ih => simpa [taken] using ih
  have ha : ∀ xs : List α, taken (xs.map (Lin.accepted t)) = [] := by
    intro xs; induction xs with
    | nil => rfl
    | cons x xs ih => simpa [taken] using ih
  have hr : ∀ n, taken (List.replicate n (Lin.refused t : Lin α)) = [] := by
    intro n; induction n with
    | zero => rfl
    | succ n ih => simpa [taken, List.replicate_succ] using ih
  have happ : ∀ a b : List (Lin α), taken (a ++ b) = taken a ++ taken b := fun a b => List.filterMap_append
  cases h with
  | shl vs k hk => rw [happ, ha, hr]; rfl
  | shr xs => rw [hm]; simp [assigned]
  | shrThrow n xs hn => rw [happ, hm]; simp [taken, assigned]
  | _ => rfl

/-- C123: nothing taken out of the channel is lost: the variables got exactly the values this thread took, in order, also if an exception was thrown. -/
theorem C123_nothing_received_lost (as : List (Act (Op α))) (s : LowSt α) (es : Trace α) (h : Exec kd as s es) (hc : Client es) (t : Tid)
    (prog : List (Expr α)) (os : List (Seen α)) (hr : Runs prog (hist t none es) os) (hd : inCall t none es = none) :
    taken (own t es) = assigned os := by
  have hf := C123_operators as s es h hc t prog os hr hd
  clear hr
  generalize own t es = l at hf
  induction hf with
  | nil => rfl
  | @cons e o l es' os ls h1 _ ih =>
    have happ : taken (l ++ ls) = taken l ++ taken ls := List.filterMap_append
    rw [happ, fit_taken h1, ih]
    cases o <;> simp [assigned]

/-- The values of `ch < v` that the program was told had entered. (Concerns co_chan.h:69-396.) -/
def reported : List (Expr α) → List (Seen α) → List α
  | .lt v :: es, .bool true _ :: os => v :: reported es os
  | _ :: es, _ :: os => reported es os
  | _, _ => []

/-- C123: without `<<` the program knows exactly which of its values entered the channel. -/
theorem C123_lt_tells_partial (as : List (Act (Op α))) (s : LowSt α) (es : Trace α) (h : Exec kd as s es) (hc : Client es) (t : Tid)
    (prog : List (Expr α)) (os : List (Seen α)) (hr : Runs prog (hist t none es) os) (hd : inCall t none es = none)
    (hp : ∀ vs, .shl vs ∉ prog) : entered (own t es) = reported prog os := by
  have hf := C123_operators as s es h hc t prog os hr hd
  clear hr
  generalize own t es = l at hf
  induction hf with
  | nil => rfl
  | @cons e o l es' os ls h1 _ ih =>
    have happ : entered (l ++ ls) = entered l ++ entered ls := List.filterMap_append
    have ih := ih (fun vs hm => hp vs (List.mem_cons_of_mem _ hm))
    have hg : ∀ xs : List α, entered (xs.map (Lin.got t)) = [] := by
      intro xs; induction xs with
      | nil => rfl
      | cons x xs ih => simpa [entered] using ih
    rw [happ, ih]
    cases h1 with
    | shl vs k hk => exact absurd List.mem_cons_self (hp vs)
    | shr xs => rw [hg]; simp [reported]
    | shrThrow n xs hn =>
      have : entered (xs.map (Lin.got t) ++ [Lin.drained t]) = [] := by
        rw [show entered (xs.map (Lin.got t) ++ [Lin.drained t]) = entered (xs.map (Lin.got t)) ++ entered [Lin.drained t] from List.filterMap_append, hg]; rfl
      rw [this]; simp [reported]
    | _ => simp [entered, reported]

/-- C123: of the values of one chain of `<<` the first ones enter and the others are lost; nothing is left out in between. -/
theorem C123_chain_prefix (as : List (Act (Op α))) (s : LowSt α) (es : Trace α) (h : Exec kd as s es) (hc : Client es) (t : Tid)
    (vs : List α) (o : Seen α) (hr : Runs [.shl vs] (hist t none es) [o]) (hd : inCall t none es = none) :
    o = .chan [] ∧ ∃ k, entered (own t es) = vs.take k := by
  have hf := C123_operators as s es h hc t [.shl vs] [o] hr hd
  generalize own t es = l at hf
  cases hf with
  | cons h1 h2 =>
    cases h2
    cases h1 with
    | shl _ k hk =>
      refine ⟨rfl, k, ?_⟩
      have ha : ∀ xs : List α, entered (xs.map (Lin.accepted t)) = xs := by
        intro xs; induction xs with
        | nil => rfl
        | cons x xs ih => simpa [entered] using ih
      have hrr : ∀ n, entered (List.replicate n (Lin.refused t : Lin α)) = [] := by
        intro n; induction n with
        | zero => rfl
        | succ n ih => simpa [entered, List.replicate_succ] using ih
      rw [List.append_nil, show entered ((vs.take k).map (Lin.accepted t) ++ List.replicate (vs.length - k) (Lin.refused t)) =
        entered ((vs.take k).map (Lin.accepted t)) ++ entered (List.replicate (vs.length - k) (Lin.refused t)) from List.filterMap_append, ha, hrr, List.append_nil]

/-! ## Cases and negation -/

/-- Thread 1: `ch << 10 << 20`. (Concerns co_chan.h:69-396.) -/
def chainRun : List (Act (Op Nat)) :=
  [.call 1 (.push 10)] ++ List.replicate 6 (.run 1) ++ [.call 1 (.push 20)] ++ List.replicate 6 (.run 1)

/-- The same, and thread 2 closes the channel in between. (Concerns co_chan.h:69-396.) -/
def cutRun : List (Act (Op Nat)) :=
  [.call 1 (.push 10)] ++ List.replicate 6 (.run 1) ++ [.call 2 .close] ++ List.replicate 11 (.run 2) ++ [.call 1 (.push 20)] ++ List.replicate 3 (.run 1)

theorem chain_trace : ((runs (Low.step (obj .unlimited)) (Low.init Ch.init) chainRun).map (fun p => p.2)) =
    some [.call 1 (.push 10), .lin (.accepted 1 10), .ret 1 (.pushed true), .call 1 (.push 20), .lin (.accepted 1 20), .ret 1 (.pushed true)] := by decide

theorem cut_trace : ((runs (Low.step (obj .unlimited)) (Low.init Ch.init) cutRun).map (fun p => p.2)) =
    some [.call 1 (.push 10), .lin (.accepted 1 10), .ret 1 (.pushed true), .call 2 .close, .lin (.closes 2), .ret 2 .ok,
      .call 1 (.push 20), .lin (.refused 1), .ret 1 (.pushed false)] := by decide

theorem exec_of_trace {as : List (Act (Op Nat))} {es : Trace Nat}
    (h : ((runs (Low.step (obj .unlimited)) (Low.init Ch.init) as).map (fun p => p.2)) = some es) : ∃ s, Exec .unlimited as s es := by
  cases hr : runs (Low.step (obj .unlimited)) (Low.init (Ch.init : Ch Nat)) as with
  | none => rw [hr] at h; simp at h
  | some p =>
    rw [hr] at h
    simp only [Option.map_some, Option.some.injEq] at h
    exact ⟨p.1, by rw [Exec, hr, ← h]⟩

/-- C123, negation: the program that evaluates `ch << 10 << 20` sees the same whether both values entered or the second was lost. -/
theorem C123_shl_silent : ∃ (as as' : List (Act (Op Nat))) (s s' : LowSt Nat) (es es' : Trace Nat),
    Exec .unlimited as s es ∧ Client es ∧ Exec .unlimited as' s' es' ∧ Client es' ∧
    inCall 1 none es = none ∧ inCall 1 none es' = none ∧
    Runs [.shl [10, 20]] (hist 1 none es) [.chan []] ∧ Runs [.shl [10, 20]] (hist 1 none es') [.chan []] ∧
    entered (own 1 es) = [10, 20] ∧ entered (own 1 es') = [10] := by
  obtain ⟨s, h⟩ := exec_of_trace chain_trace
  obtain ⟨s', h'⟩ := exec_of_trace cut_trace
  refine ⟨_, _, s, s', _, _, h, ?_, h', ?_, rfl, rfl, ?_, ?_, rfl, rfl⟩
  · intro t k hm
    simp only [List.mem_cons, Ev.call.injEq, reduceCtorEq, false_or, List.not_mem_nil, or_false] at hm
    rcases hm with ⟨_, rfl⟩ | ⟨_, rfl⟩ <;> trivial
  · intro t k hm
    simp only [List.mem_cons, Ev.call.injEq, reduceCtorEq, false_or, List.not_mem_nil, or_false] at hm
    rcases hm with ⟨_, rfl⟩ | ⟨_, rfl⟩ | ⟨_, rfl⟩ <;> trivial
  · exact .cons (h := [(.push 10, .pushed true), (.push 20, .pushed true)]) (h' := []) rfl rfl .nil
  · exact .cons (h := [(.push 10, .pushed true), (.push 20, .pushed false)]) (h' := []) rfl rfl .nil

/-- A thread that evaluates `ch < 7`, `ch >> x >> y` on the channel it then closes: the second `>>` would wait, the close comes from thread 2; `x` has its value when the exception comes. (Concerns co_chan.h:69-396.) -/
def throwRun : List (Act (Op Nat)) :=
  [.call 1 (.push 7)] ++ List.replicate 6 (.run 1) ++ [.call 2 .close] ++ List.replicate 11 (.run 2) ++
  [.call 1 .pop] ++ List.replicate 6 (.run 1) ++ [.call 1 .pop] ++ List.replicate 3 (.run 1)

example : (runs (Low.step (obj .unlimited)) (Low.init Ch.init) throwRun).map (fun p => (hist 1 none p.2, inCall 1 none p.2, own 1 p.2)) =
    some ([(.push 7, .pushed true), (.pop, .popped (some 7)), (.pop, .popped none)], none, [.accepted 1 7, .got 1 7, .drained 1]) := by decide

example : Runs [.lt 7, .shr 2] [(.push 7, .pushed true), (.pop, .popped (some 7)), (.pop, .popped (none : Option Nat))] [.bool true [], .threw [7]] :=
  .cons (h := [(.push 7, .pushed true)]) rfl rfl (.cons (h := [(.pop, .popped (some 7)), (.pop, .popped none)]) (h' := []) rfl rfl .nil)

/-! ## Iterators -/

/-- An iterator: the channel (none for a default constructed one) and the value (co_chan.h:69-83). -/
structure It (α : Type) where
  ch : Option Nat
  val : Option α
  deriving DecidableEq, Repr

/-- At its end: no channel, or the channel is closed and empty and there is no value (co_chan.h:387, 389). -/
def It.over (closed empty : Nat → Bool) (i : It α) : Bool :=
  match i.ch with
  | none => true
  | some c => closed c && empty c && i.val.isNone

/-- `operator!=` (co_chan.h:379-396) in a moment in which the channels do not change. -/
def It.ne (closed empty : Nat → Bool) (a b : It α) : Bool :=
  !(if a.ch = b.ch then true else if a.over closed empty then b.over closed empty else false)

/-- C123: comparing with `end()`, from either side, tells whether there is a value or may still come one. -/
theorem C123_end_test (closed empty : Nat → Bool) (c : Nat) (v : Option α) :
    (It.ne closed empty ⟨some c, v⟩ ⟨none, none⟩ = true ↔ v.isSome = true ∨ closed c = false ∨ empty c = false) ∧
    It.ne closed empty ⟨none, none⟩ ⟨some c, v⟩ = It.ne closed empty ⟨some c, v⟩ (⟨none, none⟩ : It α) := by
  cases v <;> cases h1 : closed c <;> cases h2 : empty c <;> simp [It.ne, It.over, h1, h2]

/-- C123, negation: two iterators of the same channel are never different, even if only one of them has a value. -/
theorem C123_same_channel (closed empty : Nat → Bool) (c : Option Nat) (v w : Option α) : It.ne closed empty ⟨c, v⟩ ⟨c, w⟩ = false := by
  simp [It.ne]

/-- An iterator with a value and one at the end of the same, closed and empty, channel. -/
example : It.ne (fun _ => true) (fun _ => true) ⟨some 0, some 5⟩ ⟨some 0, none⟩ = false ∧
    It.ne (fun _ => true) (fun _ => true) ⟨some 0, some 5⟩ (⟨none, none⟩ : It Nat) = true := by decide

end
end Verif.Chan
