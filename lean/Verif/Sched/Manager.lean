/-! # The manager: placement of coroutines, surplus envs and limits (C59, C60, C61, C63)

The decisions `co_manager` takes over its set of envs (source/cocpp/core/co_manager.cpp), as functions of what it reads
from each env. `normal_set` is a `std::set` of pointers: a list in any order here, so the theorems hold for every order.

The manager holds `normal_lock` while it decides, so the set itself does not change; the envs go on running and may change
between two reads. `Obs` has one field per read, so that the values of one env may disagree; `Env.obs` is the case where
nothing changed meanwhile. -/

namespace Verif.Manager

/-- `co_env_state` (include/cocpp/core/co_type.h / co_define.h). -/
inductive EnvState
  | created | idle | busy | blocked | destroying
deriving DecidableEq, Repr

/-- An env as the manager sees it: its state, its flags (include/cocpp/core/co_define.h:26-30) and `ctx_count__`, which is
also its `workload()` (source/cocpp/core/co_env.cpp:189-199). -/
structure Env where
  id : Nat
  st : EnvState
  noThread : Bool := false
  converted : Bool := false
  dontDestroy : Bool := false
  exclusive : Bool := false
  ctxs : Nat := 0
deriving DecidableEq, Repr

/-- What `get_best_env__` reads from one env: the state twice (co_manager.cpp:36, and in `can_schedule_ctx`), two flags, and
the workload twice (55, 57). -/
structure Obs where
  id : Nat
  st1 : EnvState
  st2 : EnvState
  noThread : Bool
  exclusive : Bool
  load1 : Nat
  load2 : Nat
deriving DecidableEq, Repr

/-- The reads of an env that does not change meanwhile. (Concerns co_manager.cpp:23-399, co_env.cpp:39-487.) -/
def Env.obs (e : Env) : Obs := ⟨e.id, e.st, e.st, e.noThread, e.exclusive, e.ctxs, e.ctxs⟩

/-- `can_schedule_ctx` (co_env.cpp:482-487). -/
def canSchedule (st : EnvState) (noThread : Bool) : Bool :=
  st != .blocked && st != .destroying && !noThread

/-- What `get_best_env__` returns: an env of the set, or a new one. (Concerns co_manager.cpp:23-399, co_env.cpp:39-487.) -/
inductive Choice
  | env (id : Nat)
  | fresh
deriving DecidableEq, Repr

/-- The loop of `get_best_env__` (co_manager.cpp:34-60) and the two tests after it (61-70). -/
def scan (base : Nat) : List Obs → Option Nat → Nat → Nat → Choice
  | [], best, _, count =>
    match best with
    | none => .fresh
    | some e => if count < base then .fresh else .env e
  | o :: os, best, min, count =>
    if o.st1 = .idle then .env o.id
    else if !canSchedule o.st2 o.noThread then scan base os best min count
    else if o.exclusive then scan base os best min count
    else if o.load1 < min then scan base os (some o.id) o.load2 (count + 1)
    else scan base os best min (count + 1)

/-- `numeric_limits<size_t>::max()`. (Concerns co_manager.cpp:23-399, co_env.cpp:39-487.) -/
def sizeMax : Nat := 2 ^ 64 - 1

/-- `get_best_env__` (co_manager.cpp:23-71). -/
def getBest (base : Nat) (os : List Obs) : Choice :=
  match os with
  | [] => .fresh
  | os => scan base os none sizeMax 0

/-- The envs of the set that count as schedulable for placement: not blocked, not being destroyed, with a thread, not
exclusive. (Concerns co_manager.cpp:23-399, co_env.cpp:39-487.) -/
def Eligible (e : Env) : Prop :=
  e.st ≠ .blocked ∧ e.st ≠ .destroying ∧ e.noThread = false ∧ e.exclusive = false

instance (e : Env) : Decidable (Eligible e) := by unfold Eligible; infer_instance

theorem eligible_iff (e : Env) : Eligible e ↔ canSchedule e.st e.noThread = true ∧ e.exclusive = false := by
  obtain ⟨i, st, a, b, c, d, n⟩ := e
  cases st <;> cases a <;> cases d <;> simp [Eligible, canSchedule]

theorem scan_idle (base : Nat) (es : List Env) (best : Option Nat) (m n : Nat) (h : ∃ e ∈ es, e.st = .idle) :
    ∃ e ∈ es, e.st = .idle ∧ scan base (es.map Env.obs) best m n = .env e.id := by
  induction es generalizing best m n with
  | nil => simp at h
  | cons e es ih =>
    by_cases hi : e.st = .idle
    · exact ⟨e, by simp, hi, by simp [scan, Env.obs, hi]⟩
    · have : ∃ e ∈ es, e.st = .idle := by simpa [hi] using h
      have ih := fun b m n => ih b m n this
      simp only [List.map_cons, scan, Env.obs, hi, if_false]
      split
      · obtain ⟨x, h1, h2, h3⟩ := ih best m n; exact ⟨x, by simp [h1], h2, h3⟩
      split
      · obtain ⟨x, h1, h2, h3⟩ := ih best m n; exact ⟨x, by simp [h1], h2, h3⟩
      split
      · obtain ⟨x, h1, h2, h3⟩ := ih (some e.id) e.ctxs (n + 1); exact ⟨x, by simp [h1], h2, h3⟩
      · obtain ⟨x, h1, h2, h3⟩ := ih best m (n + 1); exact ⟨x, by simp [h1], h2, h3⟩

/-- The loop without an idle env, from a state where `best` was found with load `m`. -/
theorem scan_busy (base : Nat) (es : List Env) (best : Option Nat) (m n : Nat) (h : ∀ e ∈ es, e.st ≠ .idle)
    (hl : ∀ e ∈ es, e.ctxs < sizeMax) (hb : best = none → m = sizeMax) :
    (best = none ∧ (∀ e ∈ es, ¬ Eligible e) ∧ scan base (es.map Env.obs) best m n = .fresh) ∨
    (n + es.countP (fun e => decide (Eligible e)) < base ∧ scan base (es.map Env.obs) best m n = .fresh) ∨
    (base ≤ n + es.countP (fun e => decide (Eligible e)) ∧
      ((∃ i, best = some i ∧ scan base (es.map Env.obs) best m n = .env i ∧ ∀ e ∈ es, Eligible e → m ≤ e.ctxs) ∨
       ∃ e ∈ es, Eligible e ∧ scan base (es.map Env.obs) best m n = .env e.id ∧ e.ctxs < m ∧
         ∀ e' ∈ es, Eligible e' → e.ctxs ≤ e'.ctxs)) := by
  induction es generalizing best m n with
  | nil =>
    cases best with
    | none => simp [scan]
    | some i =>
      by_cases hc : n < base
      · right; left; simp [scan, hc]
      · right; right; simp [scan, hc]; omega
  | cons e es ih =>
    have hi : e.st ≠ .idle := h e (by simp)
    have h' : ∀ e ∈ es, e.st ≠ .idle := fun x hx => h x (by simp [hx])
    have hl' : ∀ e ∈ es, e.ctxs < sizeMax := fun x hx => hl x (by simp [hx])
    have he := eligible_iff e
    have hle := hl e (by simp)
    simp only [List.map_cons, scan, Env.obs, hi, if_false, List.countP_cons]
    by_cases hel : Eligible e
    · obtain ⟨h1, h2⟩ := he.mp hel
      simp only [h1, h2, hel, Bool.not_true, Bool.false_eq_true, if_false, decide_true, if_true]
      by_cases hm : e.ctxs < m
      · simp only [hm, if_true]
        rcases ih (some e.id) e.ctxs (n + 1) h' hl' (by simp) with h3 | h3 | ⟨h3, h4⟩
        · simp at h3
        · right; left; exact ⟨by omega, h3.2⟩
        · right; right
          refine ⟨by omega, Or.inr ?_⟩
          rcases h4 with ⟨i, hi, h5, h6⟩ | ⟨x, hx, h5, h6, h7, h8⟩
          · obtain rfl : e.id = i := by simpa using hi
            refine ⟨e, by simp, hel, h5, hm, fun e' he' hel' => ?_⟩
            rcases List.mem_cons.mp he' with rfl | he'
            · exact Nat.le_refl _
            · exact h6 e' he' hel'
          · refine ⟨x, by simp [hx], h5, h6, by omega, fun e' he' hel' => ?_⟩
            rcases List.mem_cons.mp he' with rfl | he'
            · omega
            · exact h8 e' he' hel'
      · simp only [hm, if_false]
        have hbn : best ≠ none := fun hb' => hm (by rw [hb hb']; exact hle)
        rcases ih best m (n + 1) h' hl' hb with h3 | h3 | ⟨h3, h4⟩
        · exact absurd h3.1 hbn
        · right; left; exact ⟨by omega, h3.2⟩
        · right; right
          refine ⟨by omega, ?_⟩
          rcases h4 with ⟨i, hi, h5, h6⟩ | ⟨x, hx, h5, h6, h7, h8⟩
          · left
            refine ⟨i, hi, h5, fun e' he' hel' => ?_⟩
            rcases List.mem_cons.mp he' with rfl | he'
            · omega
            · exact h6 e' he' hel'
          · right
            refine ⟨x, by simp [hx], h5, h6, h7, fun e' he' hel' => ?_⟩
            rcases List.mem_cons.mp he' with rfl | he'
            · omega
            · exact h8 e' he' hel'
    · have hskip : (if (!canSchedule e.st e.noThread) = true then scan base (es.map Env.obs) best m n
          else if e.exclusive = true then scan base (es.map Env.obs) best m n
          else if e.ctxs < m then scan base (es.map Env.obs) (some e.id) e.ctxs (n + 1)
          else scan base (es.map Env.obs) best m (n + 1)) = scan base (es.map Env.obs) best m n := by
        rw [he] at hel
        cases h1 : canSchedule e.st e.noThread <;> cases h2 : e.exclusive <;> simp_all
      rw [hskip]
      simp only [hel, decide_false, Bool.false_eq_true, if_false, Nat.add_zero, List.mem_cons, forall_eq_or_imp,
        not_false_eq_true, true_and]
      rcases ih best m n h' hl' hb with h3 | h3 | ⟨h3, h4⟩
      · left; exact h3
      · right; left; exact h3
      · right; right
        refine ⟨h3, ?_⟩
        rcases h4 with ⟨i, hi, h5, h6⟩ | ⟨x, hx, h5, h6, h7, h8⟩
        · left; exact ⟨i, hi, h5, fun h => h.elim, h6⟩
        · right; exact ⟨x, Or.inr hx, h5, h6, h7, fun h => h.elim, h8⟩

/-- An env as the library builds it: only an env with a thread is ever idle (`set_state(idle)` is executed in the
constructor of an env with a thread, co_env.cpp:39-44, and in `start_schedule_routine__` after the flag was cleared,
391-392). Proved as an invariant in `Verif.Sched.EnvLife`. -/
def Proper (e : Env) : Prop := e.st = .idle → e.noThread = false

/-- **C59.** Placement, for every set of envs that do not change while the manager decides: with an idle env in the set, an
idle env; otherwise a new env if fewer than `base` schedulable envs exist, and else a schedulable env with the least load.
Never an env that is blocked, being destroyed or without a thread. `base` is at least one
(`C63_limits`). -/
theorem C59_placement (base : Nat) (hb : 1 ≤ base) (es : List Env) (hl : ∀ e ∈ es, e.ctxs < 2 ^ 64 - 1)
    (hp : ∀ e ∈ es, Proper e) :
    ((∃ e ∈ es, e.st = .idle) →
      ∃ e ∈ es, e.st = .idle ∧ e.noThread = false ∧ getBest base (es.map Env.obs) = .env e.id) ∧
    ((∀ e ∈ es, e.st ≠ .idle) → es.countP (fun e => decide (Eligible e)) < base →
      getBest base (es.map Env.obs) = .fresh) ∧
    ((∀ e ∈ es, e.st ≠ .idle) → base ≤ es.countP (fun e => decide (Eligible e)) →
      ∃ e ∈ es, Eligible e ∧ getBest base (es.map Env.obs) = .env e.id ∧
        ∀ e' ∈ es, Eligible e' → e.ctxs ≤ e'.ctxs) := by
  have hg : es ≠ [] → getBest base (es.map Env.obs) = scan base (es.map Env.obs) none sizeMax 0 := by
    intro hne; cases es with
    | nil => exact absurd rfl hne
    | cons e es => rfl
  refine ⟨fun hi => ?_, fun hi hc => ?_, fun hi hc => ?_⟩
  · have hne : es ≠ [] := by rintro rfl; simp at hi
    obtain ⟨e, h1, h2, h3⟩ := scan_idle base es none sizeMax 0 hi
    exact ⟨e, h1, h2, hp e h1 h2, by rw [hg hne, h3]⟩
  · by_cases hne : es = []
    · subst hne; rfl
    · rw [hg hne]
      rcases scan_busy base es none sizeMax 0 hi (by unfold sizeMax; exact hl) (fun _ => rfl) with h | h | h
      · exact h.2.2
      · exact h.2
      · omega
  · have hne : es ≠ [] := by rintro rfl; simp at hc; omega
    rw [hg hne]
    rcases scan_busy base es none sizeMax 0 hi (by unfold sizeMax; exact hl) (fun _ => rfl) with h | h | ⟨_, h | ⟨e, h1, h2, h3, h4, h5⟩⟩
    · have : es.countP (fun e => decide (Eligible e)) = 0 := by
        rw [List.countP_eq_zero]; intro e he; simp [h.2.1 e he]
      omega
    · omega
    · obtain ⟨i, hi, _⟩ := h; simp at hi
    · exact ⟨e, h1, h2, h3, h5⟩

theorem scan_seen (base : Nat) (os : List Obs) (best : Option Nat) (m n i : Nat)
    (h : scan base os best m n = .env i) :
    best = some i ∨ ∃ o ∈ os, o.id = i ∧
      (o.st1 = .idle ∨ (o.st2 ≠ .blocked ∧ o.st2 ≠ .destroying ∧ o.noThread = false ∧ o.exclusive = false)) := by
  induction os generalizing best m n with
  | nil =>
    simp only [scan] at h
    left
    cases best with
    | none => simp at h
    | some e => simp only at h; split at h <;> simp_all
  | cons o os ih =>
    simp only [scan] at h
    split at h
    · right; exact ⟨o, by simp, by simpa using h, Or.inl ‹_›⟩
    have lift : ∀ b m n, scan base os b m n = .env i → (b = some i ∨ ∃ o' ∈ o :: os, o'.id = i ∧
        (o'.st1 = .idle ∨ (o'.st2 ≠ .blocked ∧ o'.st2 ≠ .destroying ∧ o'.noThread = false ∧ o'.exclusive = false))) := by
      intro b m n h
      rcases ih b m n h with h | ⟨x, h1, h2⟩
      · exact Or.inl h
      · exact Or.inr ⟨x, by simp [h1], h2⟩
    split at h
    · exact lift _ _ _ h
    rename_i hcs
    split at h
    · exact lift _ _ _ h
    rename_i hex
    split at h
    · rcases lift _ _ _ h with h | h
      · right
        refine ⟨o, by simp, by simpa using h, Or.inr ?_⟩
        have : canSchedule o.st2 o.noThread = true := by simpa using hcs
        simp only [canSchedule, Bool.and_eq_true, bne_iff_ne, ne_eq, Bool.not_eq_true'] at this
        exact ⟨this.1.1, this.1.2, this.2, by simpa using hex⟩
      · exact Or.inr h
    · exact lift _ _ _ h

/-- **C59, with envs changing while the manager reads them.** The env chosen is one of the set and was, when it was read,
idle, or else neither blocked nor being destroyed, with a thread and not exclusive. -/
theorem C59_seen_schedulable (base : Nat) (os : List Obs) (i : Nat) (h : getBest base os = .env i) :
    ∃ o ∈ os, o.id = i ∧
      (o.st1 = .idle ∨ (o.st2 ≠ .blocked ∧ o.st2 ≠ .destroying ∧ o.noThread = false ∧ o.exclusive = false)) := by
  cases os with
  | nil => simp [getBest] at h
  | cons o os =>
    rcases scan_seen base _ none _ _ i h with h | h
    · simp at h
    · exact h

/-- Three busy envs, two of them schedulable, `base` 2: the one with the smaller load. With `base` 3: a new env. With an
idle env: that one. -/
example :
    let es : List Env := [⟨1, .busy, false, false, false, false, 7⟩, ⟨2, .busy, true, true, false, false, 0⟩,
      ⟨3, .busy, false, false, false, false, 4⟩]
    getBest 2 (es.map Env.obs) = .env 3 ∧ getBest 3 (es.map Env.obs) = .fresh ∧
    getBest 3 ((es ++ [(⟨4, .idle, false, false, false, false, 0⟩ : Env)]).map Env.obs) = .env 4 := by decide

/-- Two reads of the load that disagree make the manager choose the more loaded env: env 1 had load 0 at the first read and
9 at the second, env 2 has load 5 and replaces it; at the end of the loop env 1 may be back to 0. So "least loaded" needs
the envs to stay as they are while the manager reads. -/
example : getBest 1 [(⟨1, .busy, .busy, false, false, 0, 9⟩ : Obs), ⟨2, .busy, .busy, false, false, 5, 5⟩] = .env 2 := by decide

/-! ## C60 -/

theorem id_inj (es : List Env) (hn : (es.map Env.id).Nodup) {a b : Env} (ha : a ∈ es) (hb : b ∈ es)
    (h : a.id = b.id) : a = b := by
  induction es with
  | nil => simp at ha
  | cons e es ih =>
    simp only [List.map_cons, List.nodup_cons, List.mem_map, not_exists, not_and] at hn
    rcases List.mem_cons.mp ha with h1 | h1 <;> rcases List.mem_cons.mp hb with h2 | h2
    · rw [h1, h2]
    · exact absurd (by rw [← h, h1]) (hn.1 b h2)
    · exact absurd (by rw [h, h2]) (hn.1 a h1)
    · exact ih hn.2 h1 h2

/-- **C60, the part that holds.** An exclusive env is chosen for a coroutine that is not bound to it only if it is idle. -/
theorem C60_busy_exclusive_partial (base : Nat) (es : List Env) (hn : (es.map Env.id).Nodup) (e : Env) (he : e ∈ es)
    (hx : e.exclusive = true) (hi : e.st ≠ .idle) : getBest base (es.map Env.obs) ≠ .env e.id := by
  intro h
  obtain ⟨o, ho, h1, h2⟩ := C59_seen_schedulable base _ _ h
  obtain ⟨e', he', rfl⟩ := List.mem_map.mp ho
  obtain rfl : e' = e := id_inj es hn he' he h1
  rcases h2 with h2 | h2
  · exact hi h2
  · simp [Env.obs, hx] at h2

/-- **C60, negation.** Whatever other envs there are after it, an idle exclusive env at the front of the set is given every
coroutine, bound to it or not: the test for idleness (co_manager.cpp:36-39) comes before the test of the flag (44-48). -/
theorem C60_idle_exclusive_chosen (base : Nat) (e : Env) (es : List Env) (hi : e.st = .idle) (_hx : e.exclusive = true) :
    getBest base ((e :: es).map Env.obs) = .env e.id := by
  simp [getBest, scan, Env.obs, hi]

/-- The only idle env is exclusive, another env is schedulable and the base number is reached: the exclusive one is used. -/
theorem C60_witness :
    getBest 1 (List.map Env.obs [⟨1, .busy, false, false, false, false, 1⟩, (⟨2, .idle, false, false, true, true, 0⟩ : Env)]) = .env 2 := by
  decide

/-! ## C61 -/

/-- `can_auto_destroy` (co_env.cpp:441-445). -/
def canAutoDestroy (e : Env) : Bool := !(e.converted || e.dontDestroy || e.noThread)

/-- The candidates of `destroy_redundant_env__` (co_manager.cpp:319-323). -/
def isSurplus (e : Env) : Bool := e.st == .idle && canAutoDestroy e && !(0 < e.ctxs : Bool)

/-- `stop_schedule` (co_env.cpp:349-357): the state becomes `destroying` if the env has a thread. -/
def stop (e : Env) : Env := if e.noThread then e else { e with st := .destroying }

/-- The loop of `destroy_redundant_env__` that stops the first `k` candidates (co_manager.cpp:329-333); the candidates were
collected in the order of the set. -/
def stopFirst : Nat → List Env → List Env
  | 0, es => es
  | _ + 1, [] => []
  | k + 1, e :: es => if isSurplus e then stop e :: stopFirst k es else e :: stopFirst (k + 1) es

/-- The set after `destroy_redundant_env__` (co_manager.cpp:308-335). Simplified: the envs do not change while it runs; what
happens when they do is in `Verif.Sched.EnvLife`. -/
def destroyRedundant (max : Nat) (es : List Env) : List Env :=
  let count := es.countP (fun e => canSchedule e.st e.noThread)
  if count > max then stopFirst (count - max) es else es

/-- What "schedulable" means: a thread schedules it, and it is neither blocked nor being destroyed. (Concerns co_manager.cpp:23-399, co_env.cpp:39-487.) -/
def Schedulable (e : Env) : Prop := e.st ≠ .blocked ∧ e.st ≠ .destroying ∧ e.noThread = false

instance (e : Env) : Decidable (Schedulable e) := by unfold Schedulable; infer_instance

theorem schedulable_iff (e : Env) : canSchedule e.st e.noThread = decide (Schedulable e) := by
  obtain ⟨i, st, a, b, c, d, n⟩ := e
  cases st <;> cases a <;> simp [Schedulable, canSchedule]

theorem surplus_iff (e : Env) : isSurplus e = true ↔
    e.st = .idle ∧ e.ctxs = 0 ∧ e.converted = false ∧ e.dontDestroy = false ∧ e.noThread = false := by
  simp [isSurplus, canAutoDestroy]
  constructor
  · rintro ⟨⟨h1, ⟨h2, h3⟩, h4⟩, h5⟩; exact ⟨h1, h5, h2, h3, h4⟩
  · rintro ⟨h1, h5, h2, h3, h4⟩; exact ⟨⟨h1, ⟨h2, h3⟩, h4⟩, h5⟩

theorem stopFirst_get (k : Nat) (es : List Env) (i : Nat) :
    (stopFirst k es)[i]? = es[i]? ∨
    ∃ e, es[i]? = some e ∧ isSurplus e = true ∧ (stopFirst k es)[i]? = some { e with st := .destroying } := by
  induction es generalizing k i with
  | nil => cases k <;> simp [stopFirst]
  | cons e es ih =>
    cases k with
    | zero => simp [stopFirst]
    | succ k =>
      simp only [stopFirst]
      split
      · rename_i hs
        cases i with
        | zero =>
          right
          refine ⟨e, by simp, hs, ?_⟩
          simp [stop, ((surplus_iff e).mp hs).2.2.2.2]
        | succ i => simpa using ih k i
      · cases i with
        | zero => left; simp
        | succ i => simpa using ih (k + 1) i

theorem stopFirst_count (k : Nat) (es : List Env) :
    es.countP (fun e => decide (Schedulable e)) ≤ (stopFirst k es).countP (fun e => decide (Schedulable e)) + k := by
  induction es generalizing k with
  | nil => cases k <;> simp [stopFirst]
  | cons e es ih =>
    cases k with
    | zero => simp [stopFirst]
    | succ k =>
      simp only [stopFirst]
      split
      · have := ih k
        simp only [List.countP_cons]
        split <;> split <;> omega
      · have := ih (k + 1)
        simp only [List.countP_cons]
        omega

/-- **C61.** For every set of envs and every limit: each env is left as it is, or it was idle, empty, made by the library for
itself (not converted from a user's thread, not created with `dont_auto_destroy`) and is now being destroyed; if any env is
stopped, at least `max` schedulable ones remain. -/
theorem C61_surplus (max : Nat) (es : List Env) :
    (∀ i : Nat, (destroyRedundant max es)[i]? = es[i]? ∨
      ∃ e : Env, es[i]? = some e ∧ e.st = .idle ∧ e.ctxs = 0 ∧ e.converted = false ∧ e.dontDestroy = false ∧
        e.noThread = false ∧ (destroyRedundant max es)[i]? = some { e with st := .destroying }) ∧
    (destroyRedundant max es ≠ es → max ≤ (destroyRedundant max es).countP (fun e => decide (Schedulable e))) := by
  constructor
  · intro i
    simp only [destroyRedundant]
    split
    · rcases stopFirst_get (es.countP (fun e => canSchedule e.st e.noThread) - max) es i with h | ⟨e, h1, h2, h3⟩
      · exact Or.inl h
      · obtain ⟨a, b, c, d, f⟩ := (surplus_iff e).mp h2
        exact Or.inr ⟨e, h1, a, b, c, d, f, h3⟩
    · exact Or.inl rfl
  · intro hne
    simp only [destroyRedundant, schedulable_iff] at hne ⊢
    split at hne
    · rename_i hc
      rw [if_pos hc]
      have := stopFirst_count (es.countP (fun e => decide (Schedulable e)) - max) es
      omega
    · exact absurd rfl hne

theorem stopFirst_stops (k : Nat) (es : List Env) (h : es.countP isSurplus ≤ k) :
    (stopFirst k es).countP isSurplus = 0 := by
  induction es generalizing k with
  | nil => cases k <;> simp [stopFirst]
  | cons e es ih =>
    simp only [List.countP_cons] at h
    cases k with
    | zero =>
      simp only [stopFirst, List.countP_cons]; omega
    | succ k =>
      simp only [stopFirst]
      split
      · rename_i hs
        simp only [hs, if_true] at h
        have hn := ((surplus_iff e).mp hs).2.2.2.2
        simp only [List.countP_cons, ih k (by omega), stop, hn]
        simp [isSurplus]
      · rename_i hs
        simp only [hs] at h
        simp only [List.countP_cons, hs, ih (k + 1) (by simpa using h)]
        simp

theorem stopFirst_count_eq (k : Nat) (es : List Env) (h : k ≤ es.countP isSurplus) :
    (stopFirst k es).countP (fun e => decide (Schedulable e)) + k = es.countP (fun e => decide (Schedulable e)) := by
  induction es generalizing k with
  | nil => cases k <;> simp_all [stopFirst]
  | cons e es ih =>
    simp only [List.countP_cons] at h
    cases k with
    | zero => simp [stopFirst]
    | succ k =>
      simp only [stopFirst]
      split
      · rename_i hs
        simp only [hs, if_true] at h
        obtain ⟨h1, -, -, -, hn⟩ := (surplus_iff e).mp hs
        have := ih k (by omega)
        have hS : Schedulable e := by simp [Schedulable, h1, hn]
        have hS' : ¬ Schedulable (stop e) := by simp [Schedulable, stop, hn]
        simp only [List.countP_cons, hS, hS', decide_true, decide_false, if_true]
        simp; omega
      · rename_i hs
        simp only [hs] at h
        have := ih (k + 1) (by simpa using h)
        simp only [List.countP_cons]
        omega

/-- **C61, the monitor does its job.** Afterwards there are at most `max` schedulable envs or no env is left that could be
stopped. -/
theorem C61_enough_stopped (max : Nat) (es : List Env) :
    (destroyRedundant max es).countP (fun e => decide (Schedulable e)) ≤ max ∨
    ∀ e ∈ destroyRedundant max es,
      ¬ (e.st = .idle ∧ e.ctxs = 0 ∧ e.converted = false ∧ e.dontDestroy = false ∧ e.noThread = false) := by
  simp only [destroyRedundant, schedulable_iff]
  split
  · rename_i hc
    by_cases hk : es.countP (fun e => decide (Schedulable e)) - max ≤ es.countP isSurplus
    · left
      have := stopFirst_count_eq _ es hk
      omega
    · right
      have := stopFirst_stops (es.countP (fun e => decide (Schedulable e)) - max) es (by omega)
      rw [List.countP_eq_zero] at this
      intro e he h
      exact this e he ((surplus_iff e).mpr h)
  · left; omega

/-- Limit 1, four schedulable envs, two of them idle and empty, one idle with a waiting coroutine: the two are stopped. -/
example :
    destroyRedundant 1 [⟨1, .busy, false, false, false, false, 1⟩, ⟨2, .idle, false, false, false, false, 0⟩,
      ⟨3, .idle, false, false, false, false, 2⟩, ⟨4, .idle, false, false, false, false, 0⟩] =
    [⟨1, .busy, false, false, false, false, 1⟩, ⟨2, .destroying, false, false, false, false, 0⟩,
      ⟨3, .idle, false, false, false, false, 2⟩, ⟨4, .destroying, false, false, false, false, 0⟩] := by decide

/-! ## C63 -/

/-- `base_env_count` and `max_env_count` are `unsigned int` (include/cocpp/core/co_manager.h:37-38), the argument is a
`size_t`: the assignment keeps the low 32 bits. `set_base_schedule_thread_count` and `set_max_schedule_thread_count` are the
same function (co_manager.cpp:229-245). -/
def setLimit (n : BitVec 64) : BitVec 32 :=
  let n := if n = 0 then 1 else n
  n.truncate 32

/-- `set_timer_tick_duration` (co_manager.cpp:387-399): nanoseconds, a signed 64 bit count. -/
def setTick (d : BitVec 64) : BitVec 64 := if d.slt 10000000 then 10000000 else d

/-- **C63, the part that holds.** For arguments that fit an `unsigned int` the limit becomes `max n 1`. -/
theorem C63_limits_partial (n : BitVec 64) (h : n.toNat < 2 ^ 32) : (setLimit n).toNat = max n.toNat 1 := by
  simp only [setLimit, BitVec.truncate_eq_setWidth, BitVec.toNat_setWidth]
  split
  · rename_i h0; subst h0; rfl
  · rename_i h0
    have : n.toNat ≠ 0 := fun hc => h0 (BitVec.eq_of_toNat_eq (by simpa using hc))
    rw [Nat.mod_eq_of_lt h]; omega

/-- **C63, negation.** Every argument that is a positive multiple of 2^32 makes the limit zero. -/
theorem C63_limit_wraps (n : BitVec 64) (h0 : n ≠ 0) (h : n.toNat % 2 ^ 32 = 0) : (setLimit n).toNat = 0 := by
  simp only [setLimit, BitVec.truncate_eq_setWidth, BitVec.toNat_setWidth, if_neg h0, h]

example : setLimit 4294967296 = 0 ∧ setLimit 0 = 1 ∧ setLimit 3 = 3 := by decide

/-- **C63.** The tick is never below ten milliseconds, and a longer one is taken as given. -/
theorem C63_tick (d : BitVec 64) :
    10000000 ≤ (setTick d).toInt ∧ (10000000 ≤ d.toInt → setTick d = d) := by
  have h10 : (10000000 : BitVec 64).toInt = 10000000 := by decide
  simp only [setTick, BitVec.slt, h10, decide_eq_true_eq]
  split
  · exact ⟨by rw [h10]; omega, fun h => by omega⟩
  · exact ⟨by omega, fun _ => rfl⟩

example : setTick 25000000 = 25000000 ∧ setTick 3 = 10000000 ∧ setTick (-1) = 10000000 := by decide

end Verif.Manager
