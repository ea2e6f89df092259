import Verif.Base.Hb
import Verif.Base.Lts

/-!
# Coroutines on threads that run code made of lock operations and accesses

Any number of coroutines on any number of threads run pieces of code (`lib` says which), interleaved anywhere, also by preemption inside a
critical section. A recursive mutex (`re l`) belongs to a thread: another coroutine of the same thread gets in while it is locked, as with
`std::recursive_mutex`. A spinlock belongs to whoever took it. Coroutines do not change threads (in the code they never do, C56).
-/

namespace Verif.Prog

open Verif.Hb

variable {L X : Type} [DecidableEq L]

/-- The number of locks `l` becomes `n`. (Nothing in /repo: general.) -/
def ups (f : L → Nat) (l : L) (n : Nat) : L → Nat := fun k => if k = l then n else f k

@[simp] theorem ups_same (f : L → Nat) (l : L) (n : Nat) : ups f l n l = n := by simp [ups]

theorem ups_other (f : L → Nat) {l k : L} (n : Nat) (h : k ≠ l) : ups f l n k = f k := by simp [ups, h]

/-- What each coroutine still has to do of the piece of code it is in, and how often it has locked what. (Nothing in /repo: general.) -/
structure State (L X : Type) where
  rest : Nat → List (Op L X)
  cnt : Nat → L → Nat

/-- Nobody runs anything. (Nothing in /repo: general.) -/
def State.init : State L X := ⟨fun _ => [], fun _ _ => 0⟩

/-- Coroutine `c` has locked `l` once more, or once less, and goes on with `r`. (Nothing in /repo: general.) -/
def State.set (s : State L X) (c : Nat) (r : List (Op L X)) (l : L) (n : Nat) : State L X :=
  ⟨upd s.rest c r, upd s.cnt c (ups (s.cnt c) l n)⟩

/-- One step and what it adds to the trace, where agents are threads (`thr`): only the first lock and the last unlock of a recursive mutex
synchronise.
- `call`: a coroutine that is in no piece of code enters one.
- `first`: a lock nobody has. `again`: a recursive mutex that the thread already has (std::recursive_mutex::lock).
- `last`, `inner`: unlocking.
- `rd`, `wr`: accesses. (Nothing in /repo: general.) -/
inductive Step (thr : Nat → Nat) (re : L → Bool) (lib : List (Op L X) → Prop) : State L X → Tr L X → State L X → Prop
  | call (s) (c b) : s.rest c = [] → lib b → Step thr re lib s [] ⟨upd s.rest c b, s.cnt⟩
  | first (s) (c l r) : s.rest c = .acq l :: r → (∀ d, s.cnt d l = 0) → Step thr re lib s [(thr c, .acq l)] (s.set c r l 1)
  | again (s) (c l r) : s.rest c = .acq l :: r → re l = true → (∃ d, 0 < s.cnt d l) → (∀ d, 0 < s.cnt d l → thr d = thr c) →
      Step thr re lib s [] (s.set c r l (s.cnt c l + 1))
  | last (s) (c l r) : s.rest c = .rel l :: r → s.cnt c l = 1 → (∀ d, d ≠ c → s.cnt d l = 0) →
      Step thr re lib s [(thr c, .rel l)] (s.set c r l 0)
  | inner (s) (c l r) : s.rest c = .rel l :: r → 0 < s.cnt c l → (1 < s.cnt c l ∨ ∃ d, d ≠ c ∧ 0 < s.cnt d l) →
      Step thr re lib s [] (s.set c r l (s.cnt c l - 1))
  | rd (s) (c x r) : s.rest c = .rd x :: r → Step thr re lib s [(thr c, .rd x)] ⟨upd s.rest c r, s.cnt⟩
  | wr (s) (c x r) : s.rest c = .wr x :: r → Step thr re lib s [(thr c, .wr x)] ⟨upd s.rest c r, s.cnt⟩

/-- Executions with their traces. (Nothing in /repo: general.) -/
inductive Exec (thr : Nat → Nat) (re : L → Bool) (lib : List (Op L X) → Prop) : State L X → Tr L X → Prop
  | init : Exec thr re lib State.init []
  | step (s tr e s') : Exec thr re lib s tr → Step thr re lib s e s' → Exec thr re lib s' (tr ++ e)

/-- Lock discipline of a piece of code that starts with the locks `h`: it unlocks only what it has locked, has unlocked everything at the
end, and accesses a location with a guard only while it has that. (Nothing in /repo: general.) -/
def Disc (G : X → Option L) : (L → Nat) → List (Op L X) → Prop
  | h, [] => ∀ l, h l = 0
  | h, .acq l :: r => Disc G (ups h l (h l + 1)) r
  | h, .rel l :: r => 0 < h l ∧ Disc G (ups h l (h l - 1)) r
  | h, .rd x :: r => (∀ l, G x = some l → 0 < h l) ∧ Disc G h r
  | h, .wr x :: r => (∀ l, G x = some l → 0 < h l) ∧ Disc G h r

theorem getElem?_snoc {α : Type} (tr : List α) (e f : α) (k : Nat) (h : (tr ++ [e])[k]? = some f) :
    (k < tr.length ∧ tr[k]? = some f) ∨ (k = tr.length ∧ f = e) := by
  rcases Nat.lt_trichotomy k tr.length with hk | hk | hk
  · rw [List.getElem?_append_left hk] at h; exact .inl ⟨hk, h⟩
  · subst hk
    rw [List.getElem?_append_right (by omega)] at h
    simp at h
    exact .inr ⟨rfl, h.symm⟩
  · rw [List.getElem?_eq_none (by simp; omega)] at h; cases h

theorem holder_snoc (l : L) (tr : Tr L X) (e : Nat × Op L X) :
    holder l (tr ++ [e]) = match e.2 with
      | .acq l' => if l' = l then some e.1 else holder l tr
      | .rel l' => if l' = l then none else holder l tr
      | _ => holder l tr := by
  simp only [holder, List.foldl_append, List.foldl_cons, List.foldl_nil]
  rcases e with ⟨a, _ | _ | _ | _⟩ <;> rfl

theorem WF.snoc {tr : Tr L X} (hw : WF tr) (e : Nat × Op L X) (h1 : ∀ l, e.2 = .acq l → holder l tr = none)
    (h2 : ∀ l, e.2 = .rel l → holder l tr = some e.1) : WF (tr ++ [e]) := by
  intro k a l
  constructor <;> intro h' <;> rcases getElem?_snoc _ _ _ _ h' with ⟨hk, h⟩ | ⟨hk, h⟩
  · rw [List.take_append_of_le_length (by omega)]; exact (hw k a l).1 h
  · subst hk; rw [List.take_left]; subst h; exact h1 l rfl
  · rw [List.take_append_of_le_length (by omega)]; exact (hw k a l).2 h
  · subst hk; rw [List.take_left]; subst h; exact h2 l rfl

theorem Guarded.snoc {tr : Tr L X} {x : X} {l : L} (hg : Guarded tr x l) (e : Nat × Op L X)
    (h : e.2.touches x → holder l tr = some e.1) : Guarded (tr ++ [e]) x l := by
  intro k a p hk hp
  rcases getElem?_snoc _ _ _ _ hk with ⟨hk, h'⟩ | ⟨hk, h'⟩
  · rw [List.take_append_of_le_length (by omega)]; exact hg k a p h' hp
  · subst hk; rw [List.take_left]; subst h'; exact h hp

/-- The invariant of executions: counters and trace agree about who has the locks, every coroutine obeys the discipline, and so does the trace. (Nothing in /repo: general.) -/
structure Inv (thr : Nat → Nat) (G : X → Option L) (s : State L X) (tr : Tr L X) : Prop where
  disc : ∀ c, Disc G (s.cnt c) (s.rest c)
  held : ∀ c l, 0 < s.cnt c l → holder l tr = some (thr c)
  free : ∀ l, (∀ c, s.cnt c l = 0) → holder l tr = none
  wf : WF tr
  guarded : ∀ x l, G x = some l → Guarded tr x l

theorem inv_init (thr : Nat → Nat) (G : X → Option L) : Inv thr G (State.init : State L X) [] where
  disc c := fun _ => rfl
  held c l h := by simp [State.init] at h
  free l _ := rfl
  wf k a l := by simp
  guarded x l _ k a p h := by simp at h

theorem inv_step (thr : Nat → Nat) (re : L → Bool) (lib : List (Op L X) → Prop) (G : X → Option L) (hlib : ∀ b, lib b → Disc G (fun _ => 0) b)
    {s s' : State L X} {tr e : Tr L X} (hi : Inv thr G s tr) (h : Step thr re lib s e s') : Inv thr G s' (tr ++ e) := by
  obtain ⟨hd, hh, hf, hw, hg⟩ := hi
  cases h with
  | call c b h1 h2 =>
    rw [List.append_nil]
    refine ⟨fun d => ?_, hh, hf, hw, hg⟩
    by_cases hdc : d = c
    · subst hdc
      have := hd d
      rw [h1] at this
      simp only [upd_same]
      have h0 : s.cnt d = fun _ => 0 := funext this
      rw [h0]; exact hlib b h2
    · simp only [upd_other _ _ hdc]; exact hd d
  | first c l r h1 h2 =>
    have hc := hd c
    rw [h1] at hc
    refine ⟨fun d => ?_, fun d k hk => ?_, fun k hk => ?_, WF.snoc hw _ (fun l' hl' => ?_) (fun l' hl' => by cases hl'),
      fun x k hx => Guarded.snoc (hg x k hx) _ (fun ht => by rcases ht with ht | ht <;> cases ht)⟩
    · by_cases hdc : d = c
      · subst hdc; simp only [State.set, upd_same]; simpa only [Disc, h2, Nat.zero_add] using hc
      · simp only [State.set, upd_other _ _ hdc]; exact hd d
    · rw [holder_snoc]; simp only
      by_cases hkl : l = k
      · subst hkl
        by_cases hdc : d = c
        · subst hdc; simp
        · simp only [State.set, upd_other _ _ hdc] at hk; rw [h2 d] at hk; omega
      · rw [if_neg hkl]
        refine hh d k ?_
        by_cases hdc : d = c
        · subst hdc; simpa only [State.set, upd_same, ups_other _ _ (Ne.symm hkl)] using hk
        · simpa only [State.set, upd_other _ _ hdc] using hk
    · rw [holder_snoc]; simp only
      by_cases hkl : l = k
      · subst hkl; have := hk c; simp [State.set] at this
      · rw [if_neg hkl]
        refine hf k fun d => ?_
        have := hk d
        by_cases hdc : d = c
        · subst hdc; simpa only [State.set, upd_same, ups_other _ _ (Ne.symm hkl)] using this
        · simpa only [State.set, upd_other _ _ hdc] using this
    · cases hl'; exact hf _ h2
  | again c l r h1 h2 h3 h4 =>
    rw [List.append_nil]
    have hc := hd c
    rw [h1] at hc
    refine ⟨fun d => ?_, fun d k hk => ?_, fun k hk => ?_, hw, hg⟩
    · by_cases hdc : d = c
      · subst hdc; simp only [State.set, upd_same]; exact hc
      · simp only [State.set, upd_other _ _ hdc]; exact hd d
    · by_cases hdc : d = c
      · subst hdc
        by_cases hkl : k = l
        · subst hkl
          obtain ⟨f, hf'⟩ := h3
          rw [hh f k hf', h4 f hf']
        · simp only [State.set, upd_same, ups_other _ _ hkl] at hk; exact hh d k hk
      · simp only [State.set, upd_other _ _ hdc] at hk; exact hh d k hk
    · refine hf k fun d => ?_
      have := hk d
      by_cases hdc : d = c
      · subst hdc
        by_cases hkl : k = l
        · subst hkl; simp [State.set] at this
        · simpa only [State.set, upd_same, ups_other _ _ hkl] using this
      · simpa only [State.set, upd_other _ _ hdc] using this
  | last c l r h1 h2 h3 =>
    have hc := hd c
    rw [h1] at hc
    refine ⟨fun d => ?_, fun d k hk => ?_, fun k hk => ?_, WF.snoc hw _ (fun l' hl' => by cases hl') (fun l' hl' => ?_),
      fun x k hx => Guarded.snoc (hg x k hx) _ (fun ht => by rcases ht with ht | ht <;> cases ht)⟩
    · by_cases hdc : d = c
      · subst hdc; simp only [State.set, upd_same]; have := hc.2; rw [h2] at this; exact this
      · simp only [State.set, upd_other _ _ hdc]; exact hd d
    · rw [holder_snoc]; simp only
      by_cases hkl : l = k
      · subst hkl
        by_cases hdc : d = c
        · subst hdc; simp [State.set] at hk
        · simp only [State.set, upd_other _ _ hdc] at hk; rw [h3 d hdc] at hk; omega
      · rw [if_neg hkl]
        refine hh d k ?_
        by_cases hdc : d = c
        · subst hdc; simpa only [State.set, upd_same, ups_other _ _ (Ne.symm hkl)] using hk
        · simpa only [State.set, upd_other _ _ hdc] using hk
    · rw [holder_snoc]; simp only
      by_cases hkl : l = k
      · rw [if_pos hkl]
      · rw [if_neg hkl]
        refine hf k fun d => ?_
        have := hk d
        by_cases hdc : d = c
        · subst hdc; simpa only [State.set, upd_same, ups_other _ _ (Ne.symm hkl)] using this
        · simpa only [State.set, upd_other _ _ hdc] using this
    · cases hl'; exact hh c l (by omega)
  | inner c l r h1 h2 h3 =>
    rw [List.append_nil]
    have hc := hd c
    rw [h1] at hc
    refine ⟨fun d => ?_, fun d k hk => ?_, fun k hk => ?_, hw, hg⟩
    · by_cases hdc : d = c
      · subst hdc; simp only [State.set, upd_same]; exact hc.2
      · simp only [State.set, upd_other _ _ hdc]; exact hd d
    · by_cases hdc : d = c
      · subst hdc
        by_cases hkl : k = l
        · subst hkl; exact hh d k h2
        · simp only [State.set, upd_same, ups_other _ _ hkl] at hk; exact hh d k hk
      · simp only [State.set, upd_other _ _ hdc] at hk; exact hh d k hk
    · by_cases hkl : k = l
      · subst hkl
        rcases h3 with h3 | ⟨d, hdc, h3⟩
        · have := hk c; simp only [State.set, upd_same, ups_same] at this; omega
        · have := hk d; simp only [State.set, upd_other _ _ hdc] at this; omega
      · refine hf k fun d => ?_
        have := hk d
        by_cases hdc : d = c
        · subst hdc; simpa only [State.set, upd_same, ups_other _ _ hkl] using this
        · simpa only [State.set, upd_other _ _ hdc] using this
  | rd c x r h1 =>
    have hc := hd c
    rw [h1] at hc
    refine ⟨fun d => ?_, fun d k hk => ?_, fun k hk => ?_, WF.snoc hw _ (fun l' hl' => by cases hl') (fun l' hl' => by cases hl'),
      fun y k hy => Guarded.snoc (hg y k hy) _ (fun ht => ?_)⟩
    · by_cases hdc : d = c
      · subst hdc; simp only [upd_same]; exact hc.2
      · simp only [upd_other _ _ hdc]; exact hd d
    · rw [holder_snoc]; exact hh d k hk
    · rw [holder_snoc]; exact hf k hk
    · rcases ht with ht | ht <;> cases ht
      exact hh c k (hc.1 k hy)
  | wr c x r h1 =>
    have hc := hd c
    rw [h1] at hc
    refine ⟨fun d => ?_, fun d k hk => ?_, fun k hk => ?_, WF.snoc hw _ (fun l' hl' => by cases hl') (fun l' hl' => by cases hl'),
      fun y k hy => Guarded.snoc (hg y k hy) _ (fun ht => ?_)⟩
    · by_cases hdc : d = c
      · subst hdc; simp only [upd_same]; exact hc.2
      · simp only [upd_other _ _ hdc]; exact hd d
    · rw [holder_snoc]; exact hh d k hk
    · rw [holder_snoc]; exact hf k hk
    · rcases ht with ht | ht <;> cases ht
      exact hh c k (hc.1 k hy)

theorem inv (thr : Nat → Nat) (re : L → Bool) (lib : List (Op L X) → Prop) (G : X → Option L) (hlib : ∀ b, lib b → Disc G (fun _ => 0) b)
    {s : State L X} {tr : Tr L X} (h : Exec thr re lib s tr) : Inv thr G s tr := by
  induction h with
  | init => exact inv_init thr G
  | step s tr e s' _ hs ih => exact inv_step thr re lib G hlib ih hs

/-- Code that obeys the discipline has no data race on guarded locations: in no execution, whatever the numbers of coroutines and threads
and wherever they are interrupted. -/
theorem race_free (thr : Nat → Nat) (re : L → Bool) (lib : List (Op L X) → Prop) (G : X → Option L)
    (hlib : ∀ b, lib b → Disc G (fun _ => 0) b) {s : State L X} {tr : Tr L X} (h : Exec thr re lib s tr) {x : X} {l : L} (hx : G x = some l) :
    ¬ Race tr x :=
  no_race (inv thr re lib G hlib h).wf ((inv thr re lib G hlib h).guarded x l hx)

/-- What a coroutine adds to the trace when it runs `b` alone, having the locks `h` (only for the witnesses). (Nothing in /repo: general.) -/
def emit (t : Nat) : (L → Nat) → List (Op L X) → Tr L X
  | _, [] => []
  | h, .acq l :: r => (if h l = 0 then [(t, .acq l)] else []) ++ emit t (ups h l (h l + 1)) r
  | h, .rel l :: r => (if h l = 1 then [(t, .rel l)] else []) ++ emit t (ups h l (h l - 1)) r
  | h, .rd x :: r => (t, .rd x) :: emit t h r
  | h, .wr x :: r => (t, .wr x) :: emit t h r

/-- The locks after `b` (only for the witnesses). (Nothing in /repo: general.) -/
def after : (L → Nat) → List (Op L X) → L → Nat
  | h, [] => h
  | h, .acq l :: r => after (ups h l (h l + 1)) r
  | h, .rel l :: r => after (ups h l (h l - 1)) r
  | h, .rd _ :: r => after h r
  | h, .wr _ :: r => after h r

/-- Can `b` be run alone with the locks `h` (only for the witnesses)? (Nothing in /repo: general.) -/
def runnable (re : L → Bool) : (L → Nat) → List (Op L X) → Bool
  | _, [] => true
  | h, .acq l :: r => (decide (h l = 0) || re l) && runnable re (ups h l (h l + 1)) r
  | h, .rel l :: r => decide (0 < h l) && runnable re (ups h l (h l - 1)) r
  | h, .rd _ :: r => runnable re h r
  | h, .wr _ :: r => runnable re h r

/-- A coroutine can run alone if nobody else has the locks it uses. -/
theorem solo (thr : Nat → Nat) (re : L → Bool) (lib : List (Op L X) → Prop) (c : Nat) (b r : List (Op L X)) (s : State L X) (tr : Tr L X)
    (h : Exec thr re lib s tr) (hr : s.rest c = b ++ r) (ho : ∀ d l, d ≠ c → (.acq l ∈ b ∨ .rel l ∈ b) → s.cnt d l = 0) (hb : runnable re (s.cnt c) b = true) :
    Exec thr re lib ⟨upd s.rest c r, upd s.cnt c (after (s.cnt c) b)⟩ (tr ++ emit (thr c) (s.cnt c) b) := by
  induction b generalizing s tr with
  | nil =>
    simp only [List.nil_append] at hr
    have h1 : upd s.rest c r = s.rest := by funext d; by_cases hd : d = c <;> simp [hd, hr]
    have h2 : upd s.cnt c (after (s.cnt c) ([] : List (Op L X))) = s.cnt := by funext d; by_cases hd : d = c <;> simp [hd, after]
    rw [h1, h2]; simpa [emit] using h
  | cons o b ih =>
    rw [List.cons_append] at hr
    have hset : ∀ (s1 : State L X) (tr1 : Tr L X) (n : L → Nat), Exec thr re lib s1 tr1 → s1.rest = upd s.rest c (b ++ r) → s1.cnt = upd s.cnt c n →
        runnable re n b = true → Exec thr re lib ⟨upd s.rest c r, upd s.cnt c (after n b)⟩ (tr1 ++ emit (thr c) n b) := by
      intro s1 tr1 n h1 h2 h3 h4
      have hc : s1.cnt c = n := by rw [h3, upd_same]
      have := ih s1 tr1 h1 (by rw [h2, upd_same]) (fun d l hd hl => by
        rw [h3, upd_other _ _ hd]; exact ho d l hd (hl.imp (List.mem_cons_of_mem _) (List.mem_cons_of_mem _))) (by rw [hc]; exact h4)
      rw [hc] at this
      have e1 : upd s1.rest c r = upd s.rest c r := by rw [h2]; funext d; by_cases hd : d = c <;> simp [hd]
      have e2 : upd s1.cnt c (after n b) = upd s.cnt c (after n b) := by rw [h3]; funext d; by_cases hd : d = c <;> simp [hd]
      rw [e1, e2] at this
      exact this
    cases o with
    | acq l =>
      simp only [runnable, Bool.and_eq_true, Bool.or_eq_true, decide_eq_true_eq] at hb
      simp only [emit, after]
      by_cases h0 : s.cnt c l = 0
      · rw [if_pos h0, ← List.append_assoc]
        have hfree : ∀ d, s.cnt d l = 0 := fun d => by
          by_cases hd : d = c
          · rw [hd]; exact h0
          · exact ho d l hd (.inl List.mem_cons_self)
        refine hset _ _ _ (.step _ _ _ _ h (.first s c l (b ++ r) hr hfree)) rfl ?_ hb.2
        simp [State.set, h0]
      · rw [if_neg h0, List.nil_append]
        have hre : re l = true := by exact hb.1.resolve_left h0
        have hst := Exec.step _ _ _ _ h (.again s c l (b ++ r) hr hre ⟨c, by omega⟩ (fun d hd => by
          by_cases hdc : d = c
          · rw [hdc]
          · rw [ho d l hdc (.inl List.mem_cons_self)] at hd; omega))
        rw [List.append_nil] at hst
        exact hset _ _ _ hst rfl rfl hb.2
    | rel l =>
      simp only [runnable, Bool.and_eq_true, decide_eq_true_eq] at hb
      simp only [emit, after]
      by_cases h1 : s.cnt c l = 1
      · rw [if_pos h1, ← List.append_assoc]
        refine hset _ _ _ (.step _ _ _ _ h (.last s c l (b ++ r) hr h1 (fun d hd => ho d l hd (.inr List.mem_cons_self)))) rfl ?_ hb.2
        simp [State.set, h1]
      · rw [if_neg h1, List.nil_append]
        have hst := Exec.step _ _ _ _ h (.inner s c l (b ++ r) hr hb.1 (.inl (by omega)))
        rw [List.append_nil] at hst
        exact hset _ _ _ hst rfl rfl hb.2
    | rd x =>
      simp only [runnable] at hb
      simp only [emit, after]
      have := hset _ _ (s.cnt c) (.step _ _ _ _ h (.rd s c x (b ++ r) hr)) rfl (by funext d; by_cases hd : d = c <;> simp [hd]) hb
      simpa [List.append_assoc] using this
    | wr x =>
      simp only [runnable] at hb
      simp only [emit, after]
      have := hset _ _ (s.cnt c) (.step _ _ _ _ h (.wr s c x (b ++ r) hr)) rfl (by funext d; by_cases hd : d = c <;> simp [hd]) hb
      simpa [List.append_assoc] using this

theorem emit_app (t : Nat) (h : L → Nat) (a b : List (Op L X)) : emit t h (a ++ b) = emit t h a ++ emit t (after h a) b := by
  induction a generalizing h with
  | nil => rfl
  | cons o a ih => cases o <;> simp [emit, after, ih]

theorem emit_agent (t : Nat) (h : L → Nat) (b : List (Op L X)) : ∀ e ∈ emit t h b, e.1 = t := by
  induction b generalizing h with
  | nil => intro e he; cases he
  | cons o b ih =>
    intro e he
    cases o <;> simp only [emit, List.mem_append, List.mem_cons] at he
    · rcases he with he | he
      · split at he <;> simp at he; simp [he]
      · exact ih _ e he
    · rcases he with he | he
      · split at he <;> simp at he; simp [he]
      · exact ih _ e he
    · rcases he with rfl | he
      · rfl
      · exact ih _ e he
    · rcases he with rfl | he
      · rfl
      · exact ih _ e he

theorem runnable_app (re : L → Bool) (h : L → Nat) (a b : List (Op L X)) :
    runnable re h (a ++ b) = (runnable re h a && runnable re (after h a) b) := by
  induction a generalizing h with
  | nil => simp [runnable, after]
  | cons o a ih => cases o <;> simp [runnable, after, ih, Bool.and_assoc]

/-- Two pieces of code that reach accesses to `x`, one of them a write, without a lock in common that orders them: a race. -/
theorem race_two (re : L → Bool) (lib : List (Op L X) → Prop) {B0 B1 : List (Op L X)} (a b r0 r1 : List (Op L X)) (p q : Op L X) (x : X)
    (h0 : lib B0) (h1 : lib B1) (hB0 : B0 = a ++ [p] ++ r0) (hB1 : B1 = b ++ [q] ++ r1) (hp : p.touches x) (hq : q.touches x) (hw : p = .wr x ∨ q = .wr x) (ha : runnable re (fun _ => 0) a = true)
    (hb : runnable re (fun _ => 0) b = true) (hfree : ∀ l, (.acq l ∈ b ∨ .rel l ∈ b) → after (fun _ => 0) a l = 0) :
    ∃ s tr, Exec id re lib s tr ∧ Race tr x := by
  subst hB0 hB1
  have e0 : Exec id re lib ⟨upd (fun _ => []) 0 (a ++ [p] ++ r0), fun _ _ => 0⟩ ([] : Tr L X) := by
    have := Exec.step _ _ _ _ (Exec.init (thr := id) (re := re) (lib := lib)) (.call _ 0 _ rfl h0)
    simpa [State.init] using this
  have e1 : Exec id re lib ⟨upd (upd (fun _ => []) 0 (a ++ [p] ++ r0)) 1 (b ++ [q] ++ r1), fun _ _ => 0⟩ ([] : Tr L X) := by
    have := Exec.step _ _ _ _ e0 (.call _ 1 _ (by simp) h1)
    simpa using this
  have hr0 : runnable re (fun _ => 0) (a ++ [p]) = true := by
    rw [runnable_app, ha]; rcases hp with rfl | rfl <;> rfl
  have e2 := solo id re lib 0 (a ++ [p]) r0 _ _ e1 (by simp) (fun _ _ _ _ => rfl) hr0
  have hr1 : runnable re (fun _ => 0) (b ++ [q]) = true := by
    rw [runnable_app, hb]; rcases hq with rfl | rfl <;> rfl
  have haf : ∀ h : L → Nat, after h (a ++ [p]) = after h a := by
    have : ∀ (h : L → Nat) (c d : List (Op L X)), after h (c ++ d) = after (after h c) d := by
      intro h c d
      induction c generalizing h with
      | nil => rfl
      | cons o c ih => cases o <;> simp [after, ih]
    intro h; rw [this]; rcases hp with rfl | rfl <;> rfl
  have e3 := solo id re lib 1 (b ++ [q]) r1 _ _ e2 (by simp) (fun d l hd hl => by
    have hl' : .acq l ∈ b ∨ .rel l ∈ b := by
      rcases hq with rfl | rfl <;> simpa using hl
    by_cases h0 : d = 0
    · subst h0; simp only [upd_same, haf]; exact hfree l hl'
    · simp only [upd_other _ _ h0]) (by simpa using hr1)
  refine ⟨_, _, e3, ?_⟩
  have h10 : upd (fun _ _ => 0) 0 (after (fun _ => 0) (a ++ [p])) 1 = (fun _ => 0 : L → Nat) := by simp
  simp only [h10, List.nil_append, id]
  rw [emit_app, emit_app]
  have hpe : emit 0 (after (fun _ => 0) a) [p] = [(0, p)] := by rcases hp with rfl | rfl <;> rfl
  have hqe : emit 1 (after (fun _ => 0) b) [q] = [(1, q)] := by rcases hq with rfl | rfl <;> rfl
  rw [hpe, hqe]
  generalize hA : emit 0 (fun _ => 0) a = A
  generalize hC : emit 1 (fun _ => 0) b = C
  have hCa : ∀ e ∈ C, e.1 = 1 := by rw [← hC]; exact emit_agent 1 _ b
  have hat : ∀ j, A.length < j → ∀ d o, (A ++ [(0, p)] ++ (C ++ [(1, q)]))[j]? = some (d, o) → d = 1 := by
    intro j hj d o h
    rw [List.getElem?_append_right (by simp; omega)] at h
    have := List.mem_of_getElem? h
    simp only [List.mem_append, List.mem_cons, List.not_mem_nil, or_false, Prod.mk.injEq] at this
    rcases this with h | ⟨h, _⟩
    · exact hCa _ h
    · exact h
  have hi : (A ++ [(0, p)] ++ (C ++ [(1, q)]))[A.length]? = some (0, p) := by simp
  have hj : (A ++ [(0, p)] ++ (C ++ [(1, q)]))[A.length + 1 + C.length]? = some (1, q) := by
    rw [List.getElem?_append_right (by simp [Nat.add_assoc])]
    simp
  refine ⟨A.length, A.length + 1 + C.length, 0, 1, p, q, by omega, hi, hj, by omega, hp, hq, hw, ?_⟩
  refine not_hb (fun i => i = A.length) ?_ rfl (by omega)
  intro i j c o d o' hP hij h1 h2 h3
  subst hP
  rw [hi] at h1; simp only [Option.some.injEq, Prod.mk.injEq] at h1
  have := hat j hij d o' h2
  rcases h3 with h3 | ⟨l, h3, _⟩
  · omega
  · rw [← h1.2] at h3; rcases hp with rfl | rfl <;> cases h3

end Verif.Prog
