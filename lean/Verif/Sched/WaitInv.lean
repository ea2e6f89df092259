import Verif.Sched.Wait

/-! # Invariants of waiting -/

namespace Verif.Wait

@[simp, grind =] theorem set_same {α : Type} (f : Nat → α) (c : Nat) (v : α) : set f c v c = v := by simp [set]

@[simp, grind =] theorem set_other {α : Type} (f : Nat → α) {c d : Nat} (v : α) (h : d ≠ c) : set f c v d = f d := by simp [set, h]

@[grind =] theorem set_apply {α : Type} (f : Nat → α) (c d : Nat) (v : α) : set f c v d = if d = c then v else f d := rfl

/-- Proof device: registered and not yet resumed. (Concerns co_env.cpp:99-187, co_ctx.cpp:65-207.) -/
def Pc.sleepy : Pc → Bool
  | .entered => true
  | .held => true
  | .parked => true
  | _ => false

/-- Proof device: who will remove the key of wait `w` on a coroutine in phase `f`. (Concerns co_env.cpp:99-187, co_ctx.cpp:65-207.) -/
def willWake (f : Fn) (subs : List Nat) (tm : Tm) (w : Nat) : Prop :=
  match f with
  | .running => w ∈ subs ∨ tm = .unsubbed
  | .body => w ∈ subs ∨ tm = .unsubbed
  | .marked => w ∈ subs ∨ tm = .unsubbed
  | .pubbing rest => w ∈ rest ∨ tm = .unsubbed
  | .leaving x rest => w = x ∨ w ∈ rest ∨ tm = .unsubbed
  | .done => tm = .unsubbed

/-- Proof device: the subscribers `pub` still has to call. (Concerns co_env.cpp:99-187, co_ctx.cpp:65-207.) -/
def Fn.rest : Fn → List Nat
  | .pubbing r => r
  | .leaving x r => x :: r
  | _ => []

/-- Proof device. (Concerns co_env.cpp:99-187, co_ctx.cpp:65-207.) -/
structure Inv (cfg : Cfg) (s : State) : Prop where
  opBusy : ∀ w o, s.op w = some o → o.pc ≠ .over → s.busy o.who = some w
  busyOp : ∀ c w, s.busy c = some w → ∃ o, s.op w = some o ∧ o.who = c ∧ o.pc ≠ .over
  keyOp : ∀ c k, k ∈ s.keys c → ∃ w o, s.op w = some o ∧ o.who = c ∧ k = o.key w ∧ o.pc.sleepy = true
  sleep : ∀ w o, s.op w = some o → o.pc.sleepy = true → o.key w ∈ s.keys o.who → willWake (s.fn o.tgt) (s.subs o.tgt) (s.tm w) w
  wake : ∀ w o, s.op w = some o → o.pc.sleepy = true → o.key w ∉ s.keys o.who →
    (s.fn o.tgt).fin = true ∨ (o.timed = true ∧ (s.tm w).past = true)
  late : ∀ w o, s.op w = some o → o.timed = false → (o.pc = .awake ∨ o.pc = .over) → (s.fn o.tgt).fin = true
  late' : ∀ w o, s.op w = some o → (o.pc = .last ∨ ∃ e, o.pc = .peeked e) → (s.fn o.tgt).fin = true
  subsOp : ∀ a w, w ∈ s.subs a → ∃ o, s.op w = some o ∧ o.tgt = a
  restOp : ∀ a w, w ∈ (s.fn a).rest → ∃ o, s.op w = some o ∧ o.tgt = a
  tmOp : ∀ w, s.tm w ≠ .off → ∃ o, s.op w = some o ∧ o.timed = true
  lock : ∀ a w, w ∈ s.flock a → ∃ o, s.op w = some o ∧ o.tgt = a ∧ (o.pc = .entered ∨ o.pc = .held)
  pre : cfg.pre = false → ∀ w o, s.op w = some o → o.pc ≠ .held

theorem inv_init (cfg : Cfg) : Inv cfg State.init := by
  constructor <;> simp [State.init, Fn.rest]

attribute [local grind =] Fn.fin Fn.inPub Fn.rest Tm.holds Tm.past Pc.sleepy willWake Op.key State.leave State.setPc

theorem willWake_tm {f : Fn} {l : List Nat} {t t' : Tm} {w : Nat} (ht : t ≠ .unsubbed) (h : willWake f l t w) :
    willWake f l t' w := by
  cases f <;> simp_all [willWake] <;> grind

theorem willWake_mono {f : Fn} {l l' : List Nat} {t : Tm} {w : Nat} (hl : w ∈ l → w ∈ l') (h : willWake f l t w) :
    willWake f l' t w := by
  cases f <;> simp_all [willWake] <;> grind

theorem Inv.keys_nil {cfg : Cfg} {s : State} (h : Inv cfg s) {c : Nat} (hc : s.busy c = none) : s.keys c = [] := by
  rcases hk : s.keys c with _ | ⟨k, l⟩
  · rfl
  · obtain ⟨w, o, h1, h2, h3, h4⟩ := h.keyOp c k (by simp [hk])
    have := h.opBusy w o h1 (by intro e; simp [e, Pc.sleepy] at h4)
    rw [h2, hc] at this; cases this

theorem Inv.fresh {cfg : Cfg} {s : State} (h : Inv cfg s) {w : Nat} (hw : s.op w = none) :
    (∀ a, w ∉ s.subs a) ∧ (∀ a, w ∉ (s.fn a).rest) ∧ s.tm w = .off ∧ (∀ a, w ∉ s.flock a) := by
  refine ⟨fun a m => ?_, fun a m => ?_, ?_, fun a m => ?_⟩
  · obtain ⟨o, e, _⟩ := h.subsOp a w m; rw [hw] at e; cases e
  · obtain ⟨o, e, _⟩ := h.restOp a w m; rw [hw] at e; cases e
  · by_cases e : s.tm w = .off
    · exact e
    · obtain ⟨o, e, _⟩ := h.tmOp w e; rw [hw] at e; cases e
  · obtain ⟨o, e, _⟩ := h.lock a w m; rw [hw] at e; cases e

theorem inv_call {cfg : Cfg} {s s' : State} {w c a : Nat} {timed : Bool} {es : List Ev} (h : Inv cfg s)
    (hs : step cfg s (.call w c a timed) = some (s', es)) : Inv cfg s' := by
  have K := h.keys_nil (c := c)
  have F := h.fresh (w := w)
  obtain ⟨h1, h2, h3, h4, h5, h6, h7, h8, h9, h10, h11, h12⟩ := h
  simp only [step] at hs
  split at hs
  · rename_i hc
    obtain ⟨c1, c2, c3, c4, c5⟩ := hc
    have K := K c2
    obtain ⟨F1, F2, F3, F4⟩ := F c1
    split at hs
    · simp only [Option.some.injEq, Prod.mk.injEq] at hs
      obtain ⟨rfl, rfl⟩ := hs
      constructor <;> dsimp only
      case busyOp =>
        intro c' w' e
        by_cases hc : c' = c
        · subst hc
          simp only [set_same, Option.some.injEq] at e
          subst e
          exact ⟨_, set_same .., rfl, by simp⟩
        · grind
      all_goals grind
    · simp only [Option.some.injEq, Prod.mk.injEq] at hs
      obtain ⟨rfl, rfl⟩ := hs
      constructor <;> dsimp only
      case busyOp =>
        intro c' w' e
        by_cases hc : c' = c
        · subst hc
          simp only [set_same, Option.some.injEq] at e
          subst e
          exact ⟨_, set_same .., rfl, by simp⟩
        · grind
      case keyOp =>
        intro c' k e
        by_cases hc : c' = c
        · subst hc
          simp only [set_same, K, List.mem_singleton] at e
          exact ⟨w, _, set_same .., rfl, e, rfl⟩
        · grind
      case subsOp =>
        intro a' w' e
        by_cases hw : w' = w
        · subst hw
          refine ⟨_, set_same .., ?_⟩
          grind
        · grind
      case lock =>
        intro a' w' e
        by_cases hw : w' = w
        · subst hw
          refine ⟨_, set_same .., ?_, by simp⟩
          grind
        · grind
      case sleep =>
        intro w' o' e1 e2 e3
        by_cases hw : w' = w
        · subst hw
          simp only [set_same, Option.some.injEq] at e1
          subst e1
          dsimp only
          have : (s.fn a).fin ≠ true := by assumption
          cases hf : s.fn a <;> simp_all [willWake, Fn.fin]
        · rw [set_other _ _ hw] at e1
          have hc : o'.who ≠ c := by
            intro e
            have := h1 w' o' e1 (by intro e; simp [e, Pc.sleepy] at e2)
            rw [e, c2] at this; cases this
          rw [set_other _ _ hc] at e3
          have ht : (if timed = true then set s.tm w Tm.armed else s.tm) w' = s.tm w' := by grind
          rw [ht]
          refine willWake_mono ?_ (h4 w' o' e1 e2 e3)
          grind
      case tmOp =>
        intro w' e
        by_cases hw : w' = w
        · subst hw
          refine ⟨_, set_same .., ?_⟩
          grind
        · grind
      all_goals grind
  · simp at hs

theorem inv_release {cfg : Cfg} {s s' : State} {w : Nat} {es : List Ev} (h : Inv cfg s)
    (hs : step cfg s (.release w) = some (s', es)) : Inv cfg s' := by
  obtain ⟨h1, h2, h3, h4, h5, h6, h7, h8, h9, h10, h11, h12⟩ := h
  simp only [step] at hs
  split at hs
  · split at hs
    · simp only [Option.some.injEq, Prod.mk.injEq] at hs
      obtain ⟨rfl, rfl⟩ := hs
      constructor <;> dsimp only [State.setPc, State.leave] <;> grind
    · simp at hs
  · simp at hs

theorem inv_preempt {cfg : Cfg} {s s' : State} {w : Nat} {es : List Ev} (h : Inv cfg s)
    (hs : step cfg s (.preempt w) = some (s', es)) : Inv cfg s' := by
  obtain ⟨h1, h2, h3, h4, h5, h6, h7, h8, h9, h10, h11, h12⟩ := h
  simp only [step] at hs
  split at hs
  · split at hs
    · simp only [Option.some.injEq, Prod.mk.injEq] at hs
      obtain ⟨rfl, rfl⟩ := hs
      constructor <;> dsimp only [State.setPc, State.leave] <;> grind
    · simp at hs
  · simp at hs

theorem inv_resume {cfg : Cfg} {s s' : State} {w : Nat} {es : List Ev} (h : Inv cfg s)
    (hs : step cfg s (.resume w) = some (s', es)) : Inv cfg s' := by
  obtain ⟨h1, h2, h3, h4, h5, h6, h7, h8, h9, h10, h11, h12⟩ := h
  simp only [step] at hs
  split at hs
  · split at hs
    · split at hs
      · simp only [Option.some.injEq, Prod.mk.injEq] at hs
        obtain ⟨rfl, rfl⟩ := hs
        constructor <;> dsimp only [State.setPc, State.leave] <;> grind
      · split at hs
        · simp only [Option.some.injEq, Prod.mk.injEq] at hs
          obtain ⟨rfl, rfl⟩ := hs
          constructor <;> dsimp only [State.setPc, State.leave] <;> grind
        · simp at hs
    · simp at hs
  · simp at hs

theorem inv_check {cfg : Cfg} {s s' : State} {w : Nat} {es : List Ev} (h : Inv cfg s)
    (hs : step cfg s (.check w) = some (s', es)) : Inv cfg s' := by
  obtain ⟨h1, h2, h3, h4, h5, h6, h7, h8, h9, h10, h11, h12⟩ := h
  simp only [step] at hs
  split at hs
  · split at hs
    · split at hs
      · split at hs
        · split at hs
          · simp only [Option.some.injEq, Prod.mk.injEq] at hs
            obtain ⟨rfl, rfl⟩ := hs
            constructor <;> dsimp only [State.setPc, State.leave] <;> grind
          · simp only [Option.some.injEq, Prod.mk.injEq] at hs
            obtain ⟨rfl, rfl⟩ := hs
            constructor <;> dsimp only [State.setPc, State.leave] <;> grind
        · simp at hs
      · simp only [Option.some.injEq, Prod.mk.injEq] at hs
        obtain ⟨rfl, rfl⟩ := hs
        constructor <;> dsimp only [State.setPc, State.leave] <;> grind
    · simp at hs
  · simp at hs

theorem inv_peek {cfg : Cfg} {s s' : State} {w : Nat} {es : List Ev} (h : Inv cfg s)
    (hs : step cfg s (.peek w) = some (s', es)) : Inv cfg s' := by
  obtain ⟨h1, h2, h3, h4, h5, h6, h7, h8, h9, h10, h11, h12⟩ := h
  simp only [step] at hs
  split at hs
  · split at hs
    · split at hs
      · simp only [Option.some.injEq, Prod.mk.injEq] at hs
        obtain ⟨rfl, rfl⟩ := hs
        constructor <;> dsimp only [State.setPc, State.leave] <;> grind
      · simp only [Option.some.injEq, Prod.mk.injEq] at hs
        obtain ⟨rfl, rfl⟩ := hs
        constructor <;> dsimp only [State.setPc, State.leave] <;> grind
    · simp at hs
  · simp at hs

theorem inv_clear {cfg : Cfg} {s s' : State} {w : Nat} {es : List Ev} (h : Inv cfg s)
    (hs : step cfg s (.clear w) = some (s', es)) : Inv cfg s' := by
  obtain ⟨h1, h2, h3, h4, h5, h6, h7, h8, h9, h10, h11, h12⟩ := h
  simp only [step] at hs
  split at hs
  · split at hs
    · simp only [Option.some.injEq, Prod.mk.injEq] at hs
      obtain ⟨rfl, rfl⟩ := hs
      constructor <;> dsimp only [State.setPc, State.leave] <;> grind
    · simp at hs
  · simp at hs

theorem inv_body {cfg : Cfg} {s s' : State} {a : Nat} {r : Res} {es : List Ev} (h : Inv cfg s)
    (hs : step cfg s (.body a r) = some (s', es)) : Inv cfg s' := by
  obtain ⟨h1, h2, h3, h4, h5, h6, h7, h8, h9, h10, h11, h12⟩ := h
  simp only [step] at hs
  split at hs
  · split at hs
    all_goals
      simp only [Option.some.injEq, Prod.mk.injEq] at hs
      obtain ⟨rfl, rfl⟩ := hs
      constructor <;> dsimp only [State.setPc, State.leave] <;> grind
  · simp at hs

theorem inv_mark {cfg : Cfg} {s s' : State} {a : Nat} {es : List Ev} (h : Inv cfg s)
    (hs : step cfg s (.mark a) = some (s', es)) : Inv cfg s' := by
  obtain ⟨h1, h2, h3, h4, h5, h6, h7, h8, h9, h10, h11, h12⟩ := h
  simp only [step] at hs
  split at hs
  · simp only [Option.some.injEq, Prod.mk.injEq] at hs
    obtain ⟨rfl, rfl⟩ := hs
    constructor <;> dsimp only [State.setPc, State.leave] <;> grind
  · simp at hs

theorem inv_pub {cfg : Cfg} {s s' : State} {a : Nat} {es : List Ev} (h : Inv cfg s)
    (hs : step cfg s (.pub a) = some (s', es)) : Inv cfg s' := by
  obtain ⟨h1, h2, h3, h4, h5, h6, h7, h8, h9, h10, h11, h12⟩ := h
  simp only [step] at hs
  split at hs
  · simp only [Option.some.injEq, Prod.mk.injEq] at hs
    obtain ⟨rfl, rfl⟩ := hs
    constructor <;> dsimp only [State.setPc, State.leave] <;> grind
  · simp at hs

theorem inv_deliver {cfg : Cfg} {s s' : State} {a : Nat} {es : List Ev} (h : Inv cfg s)
    (hs : step cfg s (.deliver a) = some (s', es)) : Inv cfg s' := by
  obtain ⟨h1, h2, h3, h4, h5, h6, h7, h8, h9, h10, h11, h12⟩ := h
  simp only [step] at hs
  split at hs
  · rename_i w rest heq
    have hr : ∀ x ∈ w :: rest, ∃ o, s.op x = some o ∧ o.tgt = a := by
      intro x hx; exact h9 a x (by rw [heq]; exact hx)
    split at hs
    · rename_i o ho
      have hoa : o.tgt = a := by
        obtain ⟨o', e1, e2⟩ := hr w (by simp)
        rw [ho] at e1; cases e1; exact e2
      split at hs
      · split at hs
        · simp only [Option.some.injEq, Prod.mk.injEq] at hs
          obtain ⟨rfl, rfl⟩ := hs
          constructor <;> dsimp only
          case sleep =>
            intro w' o' e1 e2 e3
            have := h4 w' o' e1 e2 e3
            have ht : s.tm w' = .unsubbed → (if s.tm w = Tm.armed then set s.tm w Tm.stopped else s.tm) w' = .unsubbed := by grind
            by_cases hta : o'.tgt = a
            · rw [hta, set_same]
              rw [hta, heq] at this
              simp only [willWake, List.mem_cons] at this ⊢
              grind
            · rw [set_other _ _ hta]
              by_cases hw : w' = w
              · subst hw; rw [ho] at e1; cases e1; exact absurd hoa hta
              · have : (if s.tm w = Tm.armed then set s.tm w Tm.stopped else s.tm) w' = s.tm w' := by grind
                rw [this]; assumption
          case restOp =>
            intro a' w' e
            by_cases haa : a' = a
            · subst haa
              rw [set_same] at e
              exact hr w' e
            · rw [set_other _ _ haa] at e
              exact h9 a' w' e
          all_goals grind
        · simp at hs
      · simp only [Option.some.injEq, Prod.mk.injEq] at hs
        obtain ⟨rfl, rfl⟩ := hs
        constructor <;> dsimp only [State.leave]
        case sleep =>
          intro w' o' e1 e2 e3
          have hk : o'.key w' ∈ s.keys o'.who := by grind
          have := h4 w' o' e1 e2 hk
          by_cases hta : o'.tgt = a
          · rw [hta, set_same]
            rw [hta, heq] at this
            simp only [willWake, List.mem_cons] at this ⊢
            rcases this with (rfl | this) | this
            · rw [ho] at e1; cases e1
              simp at e3
            · exact .inl this
            · exact .inr this
          · rw [set_other _ _ hta]; assumption
        case restOp =>
          intro a' w' e
          by_cases haa : a' = a
          · subst haa
            rw [set_same] at e
            exact hr w' (List.mem_cons_of_mem _ e)
          · rw [set_other _ _ haa] at e
            exact h9 a' w' e
        all_goals grind
    · simp at hs
  · simp at hs

theorem inv_leave {cfg : Cfg} {s s' : State} {a : Nat} {es : List Ev} (h : Inv cfg s)
    (hs : step cfg s (.leave a) = some (s', es)) : Inv cfg s' := by
  obtain ⟨h1, h2, h3, h4, h5, h6, h7, h8, h9, h10, h11, h12⟩ := h
  simp only [step] at hs
  split at hs
  · rename_i w rest heq
    have hr : ∀ x ∈ w :: rest, ∃ o, s.op x = some o ∧ o.tgt = a := by
      intro x hx; exact h9 a x (by rw [heq]; exact hx)
    split at hs
    · rename_i o ho
      have hoa : o.tgt = a := by
        obtain ⟨o', e1, e2⟩ := hr w (by simp)
        rw [ho] at e1; cases e1; exact e2
      simp only [Option.some.injEq, Prod.mk.injEq] at hs
      obtain ⟨rfl, rfl⟩ := hs
      constructor <;> dsimp only [State.leave]
      case sleep =>
        intro w' o' e1 e2 e3
        have hk : o'.key w' ∈ s.keys o'.who := by grind
        have := h4 w' o' e1 e2 hk
        by_cases hta : o'.tgt = a
        · rw [hta, set_same]
          rw [hta, heq] at this
          simp only [willWake] at this ⊢
          rcases this with rfl | this | this
          · rw [ho] at e1; cases e1
            simp at e3
          · exact .inl this
          · exact .inr this
        · rw [set_other _ _ hta]; assumption
      case restOp =>
        intro a' w' e
        by_cases haa : a' = a
        · subst haa
          rw [set_same] at e
          exact hr w' (List.mem_cons_of_mem _ e)
        · rw [set_other _ _ haa] at e
          exact h9 a' w' e
      all_goals grind
    · simp at hs
  · simp at hs

theorem inv_pubEnd {cfg : Cfg} {s s' : State} {a : Nat} {es : List Ev} (h : Inv cfg s)
    (hs : step cfg s (.pubEnd a) = some (s', es)) : Inv cfg s' := by
  obtain ⟨h1, h2, h3, h4, h5, h6, h7, h8, h9, h10, h11, h12⟩ := h
  simp only [step] at hs
  split at hs
  · simp only [Option.some.injEq, Prod.mk.injEq] at hs
    obtain ⟨rfl, rfl⟩ := hs
    constructor <;> dsimp only [State.setPc, State.leave] <;> grind
  · simp at hs

theorem inv_fire {cfg : Cfg} {s s' : State} {w : Nat} {es : List Ev} (h : Inv cfg s)
    (hs : step cfg s (.fire w) = some (s', es)) : Inv cfg s' := by
  obtain ⟨h1, h2, h3, h4, h5, h6, h7, h8, h9, h10, h11, h12⟩ := h
  simp only [step] at hs
  split at hs
  · simp only [Option.some.injEq, Prod.mk.injEq] at hs
    obtain ⟨rfl, rfl⟩ := hs
    constructor <;> dsimp only [State.setPc, State.leave]
    case sleep =>
      intro w' o' e1 e2 e3
      by_cases hw : w' = w
      · subst hw
        exact willWake_tm (by simp [*]) (h4 w' o' e1 e2 e3)
      · rw [set_other _ _ hw]; exact h4 w' o' e1 e2 e3
    all_goals grind
  · simp at hs

theorem inv_run {cfg : Cfg} {s s' : State} {w : Nat} {es : List Ev} (h : Inv cfg s)
    (hs : step cfg s (.run w) = some (s', es)) : Inv cfg s' := by
  obtain ⟨h1, h2, h3, h4, h5, h6, h7, h8, h9, h10, h11, h12⟩ := h
  simp only [step] at hs
  split at hs
  · simp only [Option.some.injEq, Prod.mk.injEq] at hs
    obtain ⟨rfl, rfl⟩ := hs
    constructor <;> dsimp only [State.setPc, State.leave]
    case sleep =>
      intro w' o' e1 e2 e3
      by_cases hw : w' = w
      · subst hw
        exact willWake_tm (by simp [*]) (h4 w' o' e1 e2 e3)
      · rw [set_other _ _ hw]; exact h4 w' o' e1 e2 e3
    all_goals grind
  · simp at hs

theorem inv_unsub {cfg : Cfg} {s s' : State} {w : Nat} {es : List Ev} (h : Inv cfg s)
    (hs : step cfg s (.unsub w) = some (s', es)) : Inv cfg s' := by
  obtain ⟨h1, h2, h3, h4, h5, h6, h7, h8, h9, h10, h11, h12⟩ := h
  simp only [step] at hs
  split at hs
  · split at hs
    · simp only [Option.some.injEq, Prod.mk.injEq] at hs
      obtain ⟨rfl, rfl⟩ := hs
      constructor <;> dsimp only [State.setPc, State.leave]
      case sleep =>
        intro w' o' e1 e2 e3
        have := h4 w' o' e1 e2 e3
        by_cases hw : w' = w
        · subst hw
          rw [set_same]
          cases hf : s.fn o'.tgt <;> simp_all [willWake]
        · rw [set_other _ _ hw]
          refine willWake_mono ?_ this
          grind
      all_goals grind
    · simp at hs
  · simp at hs

theorem inv_tleave {cfg : Cfg} {s s' : State} {w : Nat} {es : List Ev} (h : Inv cfg s)
    (hs : step cfg s (.tleave w) = some (s', es)) : Inv cfg s' := by
  obtain ⟨h1, h2, h3, h4, h5, h6, h7, h8, h9, h10, h11, h12⟩ := h
  simp only [step] at hs
  split at hs
  · split at hs
    · simp only [Option.some.injEq, Prod.mk.injEq] at hs
      obtain ⟨rfl, rfl⟩ := hs
      constructor <;> dsimp only [State.setPc, State.leave] <;> grind
    · simp at hs
  · simp at hs

theorem inv_trelease {cfg : Cfg} {s s' : State} {w : Nat} {es : List Ev} (h : Inv cfg s)
    (hs : step cfg s (.trelease w) = some (s', es)) : Inv cfg s' := by
  obtain ⟨h1, h2, h3, h4, h5, h6, h7, h8, h9, h10, h11, h12⟩ := h
  simp only [step] at hs
  split at hs
  · simp only [Option.some.injEq, Prod.mk.injEq] at hs
    obtain ⟨rfl, rfl⟩ := hs
    constructor <;> dsimp only [State.setPc, State.leave]
    case sleep =>
      intro w' o' e1 e2 e3
      by_cases hw : w' = w
      · subst hw
        exact willWake_tm (by simp [*]) (h4 w' o' e1 e2 e3)
      · rw [set_other _ _ hw]; exact h4 w' o' e1 e2 e3
    all_goals grind
  · simp at hs

theorem inv_step {cfg : Cfg} {s s' : State} {a : Act} {es : List Ev} (h : Inv cfg s) (hs : step cfg s a = some (s', es)) :
    Inv cfg s' := by
  cases a with
  | call => exact inv_call h hs
  | release => exact inv_release h hs
  | preempt => exact inv_preempt h hs
  | resume => exact inv_resume h hs
  | check => exact inv_check h hs
  | peek => exact inv_peek h hs
  | clear => exact inv_clear h hs
  | body => exact inv_body h hs
  | mark => exact inv_mark h hs
  | pub => exact inv_pub h hs
  | deliver => exact inv_deliver h hs
  | leave => exact inv_leave h hs
  | pubEnd => exact inv_pubEnd h hs
  | fire => exact inv_fire h hs
  | run => exact inv_run h hs
  | unsub => exact inv_unsub h hs
  | tleave => exact inv_tleave h hs
  | trelease => exact inv_trelease h hs

end Verif.Wait
