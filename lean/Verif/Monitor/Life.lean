import Verif.Monitor.Full
import Mathlib.Data.List.Nodup
import Mathlib.Tactic.Linarith

/-! # When nobody uses an object any more (helper lemmas for C105) -/

namespace Verif.Monitor
section
variable {σ C K V E : Type} [DecidableEq C]

/-! ## What a trace tells -/

/-- A call begins or ends. (Concerns co_wait_group.cpp:7-36, co_latch.cpp:7-46.) -/
def note (m : Tid → Option K) : Ev K V E → Tid → Option K
  | .call t k => upd m t (some k)
  | .ret t _ => upd m t none
  | .lin _ => m

/-- The call a coroutine is inside of, as far as the trace tells. (Concerns co_wait_group.cpp:7-36, co_latch.cpp:7-46.) -/
def opens (es : List (Ev K V E)) : Tid → Option K := es.foldl note fun _ => none

/-- The sum of the weights of all calls that were begun. (Concerns co_wait_group.cpp:7-36, co_latch.cpp:7-46.) -/
def called (w : K → Nat) (es : List (Ev K V E)) : Nat := (es.map fun e => match e with | .call _ k => w k | _ => 0).sum

/-- The sum of the weights of what has happened in critical sections. (Concerns co_wait_group.cpp:7-36, co_latch.cpp:7-46.) -/
def happened (w : E → Nat) (es : List (Ev K V E)) : Nat := (es.map fun e => match e with | .lin e => w e | _ => 0).sum

/-- The number of calls that have returned, with call and result in `p`. (Concerns co_wait_group.cpp:7-36, co_latch.cpp:7-46.) -/
def rets (p : K → V → Bool) (es : List (Ev K V E)) : Nat :=
  (es.foldl (fun (x : (Tid → Option K) × Nat) e => (note x.1 e, x.2 + match e with
    | .ret t v => (match x.1 t with | some k => if p k v then 1 else 0 | none => 0)
    | _ => 0)) (fun _ => none, 0)).2

theorem opens_append (es fs : List (Ev K V E)) : opens (es ++ fs) = fs.foldl note (opens es) := by simp [opens]
theorem called_append (w : K → Nat) (es fs : List (Ev K V E)) : called w (es ++ fs) = called w es + called w fs := by simp [called]
theorem happened_append (w : E → Nat) (es fs : List (Ev K V E)) : happened w (es ++ fs) = happened w es + happened w fs := by
  simp [happened]

theorem rets_fst (p : K → V → Bool) (es : List (Ev K V E)) (m : Tid → Option K) (n : Nat) :
    (es.foldl (fun (x : (Tid → Option K) × Nat) e => (note x.1 e, x.2 + match e with
      | .ret t v => (match x.1 t with | some k => if p k v then 1 else 0 | none => 0)
      | _ => 0)) (m, n)).1 = es.foldl note m := by
  induction es generalizing m n with
  | nil => rfl
  | cons e es ih => exact ih _ _

theorem rets_snoc (p : K → V → Bool) (es : List (Ev K V E)) (e : Ev K V E) :
    rets p (es ++ [e]) = rets p es + match e with
      | .ret t v => (match opens es t with | some k => if p k v then 1 else 0 | none => 0)
      | _ => 0 := by
  simp only [rets, List.foldl_append, List.foldl_cons, List.foldl_nil]
  rw [rets_fst]
  rfl

theorem rets_append_lin (p : K → V → Bool) (es : List (Ev K V E)) (l : List E) : rets p (es ++ l.map .lin) = rets p es := by
  induction l generalizing es with
  | nil => simp
  | cons e l ih =>
    have := ih (es ++ [.lin e])
    rw [List.map_cons, show es ++ Ev.lin e :: l.map Ev.lin = (es ++ [.lin e]) ++ l.map .lin by simp, this, rets_snoc]
    rfl

theorem opens_lin (es : List (Ev K V E)) (l : List E) : opens (es ++ l.map .lin) = opens es := by
  rw [opens_append]
  induction l with
  | nil => rfl
  | cons e l ih => exact ih

/-! ## Sums over coroutines -/

/-- Proof device: `x` is `y` and what `φ` gives for finitely many coroutines. (Concerns co_wait_group.cpp:7-36, co_latch.cpp:7-46.) -/
def Bal (φ : Tid → Nat) (x y : Nat) : Prop := ∃ l : List Tid, l.Nodup ∧ (∀ t, t ∉ l → φ t = 0) ∧ x = y + (l.map φ).sum

theorem sum_upd {φ ψ : Tid → Nat} {t : Tid} (h : ∀ u, u ≠ t → ψ u = φ u) : ∀ l : List Tid, l.Nodup → t ∈ l →
    (l.map ψ).sum + φ t = (l.map φ).sum + ψ t
  | [], _, ht => by simp at ht
  | u :: l, hn, ht => by
    rw [List.nodup_cons] at hn
    simp only [List.map_cons, List.sum_cons]
    by_cases hu : u = t
    · subst hu
      have : l.map ψ = l.map φ := List.map_congr_left fun v hv => h v fun e => hn.1 (e ▸ hv)
      rw [this]; omega
    · have := sum_upd h l hn.2 (by simpa [Ne.symm hu] using ht)
      rw [h u hu]; omega

theorem Bal.step {φ ψ : Tid → Nat} {x y x' y' : Nat} (h : Bal φ x y) (t : Tid) (ho : ∀ u, u ≠ t → ψ u = φ u)
    (hx : x' + φ t + y = x + ψ t + y') : Bal ψ x' y' := by
  obtain ⟨l, h1, h2, h3⟩ := h
  by_cases ht : t ∈ l
  · refine ⟨l, h1, fun u hu => ?_, ?_⟩
    · rw [ho u (fun e => hu (e ▸ ht)), h2 u hu]
    · have := sum_upd ho l h1 ht
      omega
  · refine ⟨t :: l, by simp [ht, h1], fun u hu => ?_, ?_⟩
    · simp only [List.mem_cons, not_or] at hu
      rw [ho u hu.1, h2 u hu.2]
    · have : l.map ψ = l.map φ := List.map_congr_left fun v hv => ho v fun e => ht (e ▸ hv)
      have h0 := h2 t ht
      simp only [List.map_cons, List.sum_cons, this]
      omega

theorem Bal.same {φ ψ : Tid → Nat} {x y : Nat} (h : Bal φ x y) (ho : ∀ u, ψ u = φ u) : Bal ψ x y := by
  have : ψ = φ := funext ho
  rwa [this]

theorem Bal.le {φ : Tid → Nat} {x y : Nat} (h : Bal φ x y) : y ≤ x := by
  obtain ⟨l, -, -, h⟩ := h
  omega

theorem le_sum {x : Nat} : ∀ {l : List Nat}, x ∈ l → x ≤ l.sum
  | [], h => by simp at h
  | y :: l, h => by
    rw [List.sum_cons]
    rcases List.mem_cons.1 h with rfl | h
    · omega
    · have := le_sum h; omega

theorem Bal.le_add {φ : Tid → Nat} {x y : Nat} (h : Bal φ x y) (t : Tid) : y + φ t ≤ x := by
  obtain ⟨l, -, h2, h⟩ := h
  by_cases hm : t ∈ l
  · have := le_sum (l := l.map φ) (List.mem_map_of_mem hm)
    omega
  · have := h2 t hm
    omega

theorem Bal.init {φ : Tid → Nat} (h : ∀ t, φ t = 0) : Bal φ 0 0 := ⟨[], by simp, fun t _ => h t, by simp⟩

/-! ## Steps -/

/-- Proof device: the section to come. (Concerns co_wait_group.cpp:7-36, co_latch.cpp:7-46.) -/
def Fin.todo : Fin C K V → Option K
  | .ret _ => none
  | .next k | .park _ k => some k

/-- Proof device: what will be returned. (Concerns co_wait_group.cpp:7-36, co_latch.cpp:7-46.) -/
def Fin.result : Fin C K V → Option V
  | .ret v => some v
  | _ => none

/-- Proof device: the section to come. (Concerns co_wait_group.cpp:7-36, co_latch.cpp:7-46.) -/
def Pc.todo : Pc C K V → Option K
  | .idle => none
  | .acq k | .exec k => some k
  | .sig _ f | .sGo _ _ f | .sWake _ _ _ f | .sAll _ _ _ f | .sRel _ _ f => f.todo
  | .pPush _ k | .pUnlk _ k | .pSleep _ k | .pRel _ k | .pYield _ k => some k

/-- Proof device: what will be returned. (Concerns co_wait_group.cpp:7-36, co_latch.cpp:7-46.) -/
def Pc.result : Pc C K V → Option V
  | .sig _ f | .sGo _ _ f | .sWake _ _ _ f | .sAll _ _ _ f | .sRel _ _ f => f.result
  | _ => none

theorem Pc.done_hasM {p : Pc C K V} (h : p.todo = none) (hi : p ≠ .idle) : p.hasM = true := by
  cases p <;> simp_all [Pc.todo, Pc.hasM]

/-- The four kinds of steps. -/
theorem low_cases {o : Obj σ C K V E} {s s' : Low σ C K V} {a : Act K} {es : List (Ev K V E)} (h : s.step o a = some (s', es)) :
    (∃ t k, s.pc t = .idle ∧ s'.sh = s.sh ∧ s'.pc = upd s.pc t (.acq k) ∧ es = [.call t k]) ∨
    (∃ t k, s.pc t = .exec k ∧ s'.sh = (o.body t k s.sh).sh ∧ s'.pc = upd s.pc t (.sig (o.body t k s.sh).sigs (o.body t k s.sh).fin) ∧
      es = (o.body t k s.sh).ev.map .lin) ∨
    (∃ t v, s.pc t = .sig [] (.ret v) ∧ s'.sh = s.sh ∧ s'.pc = upd s.pc t .idle ∧ es = [.ret t v]) ∨
    (∃ t p, es = [] ∧ s'.sh = s.sh ∧ s'.pc = upd s.pc t p ∧ p.todo = (s.pc t).todo ∧ p.result = (s.pc t).result ∧ p ≠ .idle ∧
      s.pc t ≠ .idle) := by
  cases a with
  | call t k =>
    simp only [Low.step] at h
    split at h <;> cases h
    rename_i hp
    exact .inl ⟨t, k, hp, rfl, rfl, rfl⟩
  | run t =>
    simp only [Low.step, Low.runStep, Low.goto] at h
    cases hp : s.pc t
    case idle => simp [hp] at h
    case exec k =>
      simp only [hp, Option.some.injEq, Prod.mk.injEq] at h
      obtain ⟨rfl, rfl⟩ := h
      exact .inr (.inl ⟨t, k, hp, rfl, rfl, rfl⟩)
    case sig l f =>
      rcases l with _ | ⟨g, l⟩
      · rcases f with v | k | ⟨c, k⟩
        · simp only [hp, Option.some.injEq, Prod.mk.injEq] at h
          obtain ⟨rfl, rfl⟩ := h
          exact .inr (.inr (.inl ⟨t, v, hp, rfl, rfl, rfl⟩))
        all_goals
          refine .inr (.inr (.inr ⟨t, s'.pc t, ?_⟩))
          simp only [hp] at h
          (try split at h) <;> cases h <;> simp [hp, Pc.todo, Pc.result, Fin.todo, Fin.result]
      · refine .inr (.inr (.inr ⟨t, s'.pc t, ?_⟩))
        simp only [hp] at h
        split at h <;> cases h <;> simp [hp, Pc.todo, Pc.result]
    case sGo g l f =>
      refine .inr (.inr (.inr ⟨t, s'.pc t, ?_⟩))
      cases g <;> simp only [hp] at h
      · split at h <;> cases h <;> simp [hp, Pc.todo, Pc.result]
      · cases h; simp [hp, Pc.todo, Pc.result]
    case sAll c ws l f =>
      refine .inr (.inr (.inr ⟨t, s'.pc t, ?_⟩))
      cases ws <;> simp only [hp] at h <;> cases h <;> simp [hp, Pc.todo, Pc.result]
    all_goals
      refine .inr (.inr (.inr ⟨t, s'.pc t, ?_⟩))
      simp only [hp] at h
      (try split at h) <;> cases h <;> simp [hp, Pc.todo, Pc.result]

/-- Invariants of executions and their traces. -/
theorem low_inv {o : Obj σ C K V E} {s0 : σ} (I : Low σ C K V → List (Ev K V E) → Prop) (h0 : I (Low.init s0) [])
    (hstep : ∀ as s a s' e1 es, runs (Low.step o) (Low.init s0) as = some (s, es) → s.Inv → I s es → Low.step o s a = some (s', e1) →
      I s' (es ++ e1)) {as : List (Act K)} {s : Low σ C K V}
    {es : List (Ev K V E)} (h : runs (Low.step o) (Low.init s0) as = some (s, es)) : I s es := by
  have key : ∀ (as bs : List (Act K)) (x y : Low σ C K V) (e0 es : List (Ev K V E)), runs (Low.step o) (Low.init s0) bs = some (x, e0) →
      x.Inv → I x e0 → runs (Low.step o) x as = some (y, es) → I y (e0 ++ es) := by
    intro as
    induction as with
    | nil =>
      intro bs x y e0 es _ _ hI h
      simp only [runs, Option.some.injEq, Prod.mk.injEq] at h
      obtain ⟨rfl, rfl⟩ := h
      simpa using hI
    | cons a as ih =>
      intro bs x y e0 es hb hx hI h
      obtain ⟨x1, e1, e2, h1, h2, rfl⟩ := runs_cons h
      have hb1 : runs (Low.step o) x [a] = some (x1, e1) := by simp [runs, h1]
      have := ih _ x1 y (e0 ++ e1) e2 (runs_append hb hb1) (Low.inv_step _ _ _ _ hx h1) (hstep _ _ _ _ _ _ hb hx hI h1) h2
      rwa [List.append_assoc] at this
  simpa using key as [] _ _ [] es rfl (Low.inv_init s0) h0 h

/-- A coroutine is inside a call, as far as the trace tells, iff it is. -/
theorem opens_idle {o : Obj σ C K V E} {s0 : σ} {as : List (Act K)} {s : Low σ C K V} {es : List (Ev K V E)}
    (h : runs (Low.step o) (Low.init s0) as = some (s, es)) (t : Tid) : opens es t = none ↔ s.pc t = .idle := by
  refine low_inv (fun s es => ∀ t, opens es t = none ↔ s.pc t = .idle) (fun t => by simp [opens, Low.init]) ?_ h t
  intro _ s a s' e1 es _ _ hI hs u
  rcases low_cases hs with ⟨t, k, -, -, h3, rfl⟩ | ⟨t, k, hp, -, h3, rfl⟩ | ⟨t, v, hp, -, h3, rfl⟩ | ⟨t, p, rfl, -, h3, -, -, h6, h7⟩
  · rw [opens_append, h3]
    by_cases hu : u = t
    · subst hu; simp [note]
    · simp [note, hu, hI]
  · rw [opens_lin, h3, hI]
    by_cases hu : u = t
    · subst hu; simp [hp]
    · simp [hu]
  · rw [opens_append, h3]
    by_cases hu : u = t
    · subst hu; simp [note]
    · simp [note, hu, hI]
  · rw [List.append_nil, h3, hI]
    by_cases hu : u = t
    · subst hu; simp [h6, h7]
    · simp [hu]

/-- A property of control points that the sections of a call pass on is that of the call. -/
theorem todo_class {α : Type} {o : Obj σ C K V E} {s0 : σ} (cls : K → α)
    (hk : ∀ t k s k', (o.body t k s).fin.todo = some k' → cls k' = cls k) {as : List (Act K)} {s : Low σ C K V} {es : List (Ev K V E)}
    (h : runs (Low.step o) (Low.init s0) as = some (s, es)) {t : Tid} {k k' : K} (h1 : opens es t = some k)
    (h2 : (s.pc t).todo = some k') : cls k' = cls k := by
  refine low_inv (fun s es => ∀ t k k', opens es t = some k → (s.pc t).todo = some k' → cls k' = cls k)
    (fun t k k' h => by simp [opens] at h) ?_ h t k k' h1 h2
  intro _ s a s' e1 es _ _ hI hs u k k' h1 h2
  rcases low_cases hs with ⟨t, j, -, -, h3, rfl⟩ | ⟨t, j, hp, -, h3, rfl⟩ | ⟨t, v, hp, -, h3, rfl⟩ | ⟨t, p, rfl, -, h3, h4, -, h6, h7⟩
  · rw [opens_append] at h1
    rw [h3] at h2
    by_cases hu : u = t
    · subst hu
      simp [note] at h1
      simp [Pc.todo] at h2
      rw [← h1, ← h2]
    · simp [note, hu] at h1
      simp [hu] at h2
      exact hI u k k' h1 h2
  · rw [opens_lin] at h1
    rw [h3] at h2
    by_cases hu : u = t
    · subst hu
      simp [Pc.todo] at h2
      rw [hk _ _ _ _ h2]
      exact hI u k j h1 (by rw [hp]; rfl)
    · simp [hu] at h2
      exact hI u k k' h1 h2
  · rw [opens_append] at h1
    rw [h3] at h2
    by_cases hu : u = t
    · subst hu; simp [note] at h1
    · simp [note, hu] at h1
      simp [hu] at h2
      exact hI u k k' h1 h2
  · rw [List.append_nil] at h1
    rw [h3] at h2
    by_cases hu : u = t
    · subst hu
      simp [h4] at h2
      exact hI u k k' h1 h2
    · simp [hu] at h2
      exact hI u k k' h1 h2

/-! ## Counting calls -/

/-- Proof device: the weight of what a coroutine has still to do. (Concerns co_wait_group.cpp:7-36, co_latch.cpp:7-46.) -/
def owed (w : K → Nat) (k : Option K) : Nat := k.elim 0 w

/-- Proof device: a call of weight `w k` makes things of this weight happen, as long as the total is at most `W`; `J` relates the data and
what has happened. (Concerns co_wait_group.cpp:7-36, co_latch.cpp:7-46.) -/
structure Plan (o : Obj σ C K V E) (s0 : σ) (W : Nat) (w : K → Nat) (lw : E → Nat) (J : σ → Nat → Prop) : Prop where
  init : J s0 0
  body : ∀ t k s c, J s c → c + w k ≤ W → J (o.body t k s).sh (c + ((o.body t k s).ev.map lw).sum) ∧
    ((o.body t k s).ev.map lw).sum + owed w (o.body t k s).fin.todo = w k

theorem Plan.bal {o : Obj σ C K V E} {s0 : σ} {W : Nat} {w : K → Nat} {lw : E → Nat} {J : σ → Nat → Prop} (P : Plan o s0 W w lw J)
    {as : List (Act K)} {s : Low σ C K V} {es : List (Ev K V E)} (h : runs (Low.step o) (Low.init s0) as = some (s, es))
    (hw : called w es ≤ W) : Bal (fun t => owed w (s.pc t).todo) (called w es) (happened lw es) ∧ J s.sh (happened lw es) := by
  refine low_inv (fun s es => called w es ≤ W → Bal (fun t => owed w (s.pc t).todo) (called w es) (happened lw es) ∧ J s.sh (happened lw es))
    (fun _ => ⟨Bal.init (fun t => by simp [Low.init, Pc.todo, owed]), P.init⟩) ?_ h hw
  intro _ s a s' e1 es _ _ hI hs hw
  obtain ⟨hb, hJ⟩ := hI (by rw [called_append] at hw; omega)
  rcases low_cases hs with ⟨t, j, hp, h2, h3, rfl⟩ | ⟨t, j, hp, h2, h3, rfl⟩ | ⟨t, v, hp, h2, h3, rfl⟩ | ⟨t, p, rfl, h2, h3, h4, -, h6, h7⟩
  · have h0 : happened lw (es ++ [Ev.call t j]) = happened lw es := by simp [happened]
    rw [h0, h2, h3]
    refine ⟨hb.step t (fun u hu => by simp [hu]) ?_, hJ⟩
    simp [called, hp, Pc.todo, owed]
  · have h0 : called w (es ++ ((o.body t j s.sh).ev.map Ev.lin)) = called w es := by
      rw [called_append]
      simp [called, Function.comp_def]
    have h1 : happened lw (es ++ ((o.body t j s.sh).ev.map Ev.lin)) = happened lw es + ((o.body t j s.sh).ev.map lw).sum := by
      rw [happened_append]
      simp [happened, Function.comp_def]
    have hle := hb.le_add t
    have hpe : owed w (s.pc t).todo = w j := by rw [hp]; rfl
    rw [h0] at hw
    simp only [hpe] at hle
    obtain ⟨q1, q2⟩ := P.body t j s.sh _ hJ (by omega)
    rw [h0, h1, h2, h3]
    refine ⟨hb.step t (fun u hu => by simp [hu]) ?_, q1⟩
    simp only [upd_same, hpe]
    have : owed w (Pc.sig (o.body t j s.sh).sigs (o.body t j s.sh).fin : Pc C K V).todo = owed w (o.body t j s.sh).fin.todo := rfl
    rw [this]
    omega
  · have h0 : happened lw (es ++ [Ev.ret t v]) = happened lw es := by simp [happened]
    have h1 : called w (es ++ [Ev.ret t v]) = called w es := by simp [called]
    rw [h0, h1, h2, h3]
    refine ⟨hb.step t (fun u hu => by simp [hu]) ?_, hJ⟩
    simp [hp, Pc.todo, owed, Fin.todo]
  · rw [List.append_nil, h2, h3]
    refine ⟨hb.same fun u => ?_, hJ⟩
    by_cases hu : u = t
    · subst hu; simp [h4]
    · simp [hu]

/-- If all calls of total weight `W` have had their effect before some call returned, at this moment all of them have ended. -/
theorem Plan.over {o : Obj σ C K V E} {s0 : σ} {W : Nat} {w : K → Nat} {lw : E → Nat} {J : σ → Nat → Prop} (P : Plan o s0 W w lw J)
    {pure : K → Bool} (hp1 : ∀ k, pure k = true → 0 < w k) (hp2 : ∀ t k s k', (o.body t k s).fin.todo = some k' → pure k' = pure k)
    {enough : List (Ev K V E) → Prop} (h0 : ¬ enough [])
    (hE1 : ∀ as s es, runs (Low.step o) (Low.init s0) as = some (s, es) → called w es ≤ W → enough es → W ≤ happened lw es)
    (hE2 : ∀ es e, (∀ t v, Ev.ret t v ∉ e) → enough (es ++ e) → enough es)
    {as : List (Act K)} {s : Low σ C K V} {es : List (Ev K V E)} (h : runs (Low.step o) (Low.init s0) as = some (s, es))
    (hw : called w es ≤ W) (he : enough es) {t : Tid} {k : K} (ho : opens es t = some k) : pure k = false := by
  refine low_inv (fun s es => called w es ≤ W → enough es → ∀ t k, opens es t = some k → pure k = false)
    (fun _ h => absurd h h0) ?_ h hw he t k ho
  intro bs s a s' e1 es hr hInv hI hs hw he u k ho
  have hw0 : called w es ≤ W := by rw [called_append] at hw; omega
  have hr1 : runs (Low.step o) s [a] = some (s', e1) := by simp [runs, hs]
  have hW := hE1 _ _ _ (runs_append hr hr1) hw he
  obtain ⟨hb, -⟩ := P.bal (runs_append hr hr1) hw
  rcases low_cases hs with ⟨t, j, hp, -, h3, rfl⟩ | ⟨t, j, hp, -, h3, rfl⟩ | ⟨t, v, hp, -, h3, rfl⟩ | ⟨t, p, rfl, -, h3, h4, -, h6, h7⟩
  · have he0 := hE2 es _ (by simp) he
    rw [opens_append] at ho
    by_cases hu : u = t
    · subst hu
      simp [note] at ho
      subst ho
      cases hc : pure j with
      | false => rfl
      | true =>
        have := hb.le_add u
        have h1 := hp1 j hc
        simp only [h3, upd_same, Pc.todo, owed, Option.elim] at this
        omega
    · simp [note, hu] at ho
      exact hI hw0 he0 u k ho
  · rw [opens_lin] at ho
    exact hI hw0 (hE2 es _ (by simp) he) u k ho
  · rw [opens_append] at ho
    by_cases hu : u = t
    · subst hu; simp [note] at ho
    · simp [note, hu] at ho
      cases hc : pure k with
      | false => rfl
      | true =>
        exfalso
        have hne : s.pc u ≠ .idle := fun e => by
          rw [(opens_idle hr u).2 e] at ho
          cases ho
        cases ht : (s.pc u).todo with
        | none =>
          have h1 := (hInv.m u).1 (Pc.done_hasM ht hne)
          have h2 := (hInv.m t).1 (by rw [hp]; rfl)
          rw [h1] at h2
          simp at h2
          exact hu h2
        | some k' =>
          have hk' : pure k' = pure k := todo_class pure hp2 hr ho ht
          have := hb.le_add u
          have h1 := hp1 k' (by rw [hk', hc])
          simp only [h3, upd_other _ _ hu, ht, owed, Option.elim] at this
          omega
  · rw [List.append_nil] at ho he
    exact hI hw0 he u k ho

end
end Verif.Monitor
