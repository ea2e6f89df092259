import Verif.Base.Lts

/-! # `co_any` (include/cocpp/utils/co_any.h) and coroutine local storage (include/cocpp/core/co_ctx.h:112-120) -/

namespace Verif.Any

/-- The C++ types that occur, and their values. (Concerns co_any.h:20-77.) -/
structure Univ where
  Ty : Type
  Val : Ty → Type
  deq : DecidableEq Ty

instance (U : Univ) : DecidableEq U.Ty := U.deq

/-- A value together with the type it was stored as: a `real_type<T>` object (co_any.h:20-31). -/
abbrev Cell (U : Univ) := (t : U.Ty) × U.Val t

/-- State: the objects allocated so far (`real_type<T>`, never freed here), and for each `co_any` variable the object its
`shared_ptr` points at. (co_any.h:20-77.) -/
structure State (U : Univ) where
  heap : List (Cell U)
  ptr : Nat → Option Nat

/-- All variables default constructed (co_any.h:29, 32): empty. -/
def State.init (U : Univ) : State U := ⟨[], fun _ => none⟩

/-- Operations on `co_any` variables (co_any.h:55-77). -/
inductive Act (U : Univ)
  /-- `v = x` with `x` of type `t`, or construction from it (co_any.h:54-66) -/
  | store (v : Nat) (t : U.Ty) (x : U.Val t)
  /-- `v = w`, or `co_any v(w)` (co_any.h:37-38, defaulted: the shared pointer is copied) -/
  | copy (v w : Nat)
  /-- `v.get<t>() = x` (co_any.h:68-77) -/
  | put (v : Nat) (t : U.Ty) (x : U.Val t)
  /-- `v.get<t>()` read -/
  | get (v : Nat) (t : U.Ty)

/-- What happened (no counterpart in the code). (Concerns co_any.h:20-77.) -/
inductive Ev (U : Univ)
  | store (v : Nat) (t : U.Ty) (x : U.Val t)
  | copy (v w : Nat)
  | put (v : Nat) (t : U.Ty) (x : U.Val t)
  /-- `get` returned this value of type `t` -/
  | got (v : Nat) (t : U.Ty) (x : U.Val t)
  /-- `get<t>` threw `bad_cast` -/
  | thrown (v : Nat) (t : U.Ty)

/-- `dynamic_pointer_cast<real_type<t>>` of an object. (Concerns co_any.h:20-77.) -/
def cast {U : Univ} (c : Cell U) (t : U.Ty) : Option (U.Val t) := if h : c.1 = t then some (h ▸ c.2) else none

/-- The object a variable points to. (Concerns co_any.h:20-77.) -/
def State.cell {U : Univ} (s : State U) (v : Nat) : Option (Cell U) := (s.ptr v).bind (fun i => s.heap[i]?)

/-- One operation. See `Act` for the lines. (co_any.h:54-77.) -/
def step {U : Univ} (s : State U) : Act U → Option (State U × List (Ev U))
  | .store v t x => some (⟨s.heap ++ [⟨t, x⟩], upd s.ptr v (some s.heap.length)⟩, [.store v t x])
  | .copy v w => some ({ s with ptr := upd s.ptr v (s.ptr w) }, [.copy v w])
  | .put v t x =>
    match s.ptr v with
    | none => some (s, [.thrown v t])
    | some i =>
      match s.heap[i]? with
      | none => none
      | some c =>
        match cast c t with
        | some _ => some ({ s with heap := s.heap.set i ⟨t, x⟩ }, [.put v t x])
        | none => some (s, [.thrown v t])
  | .get v t =>
    match s.cell v with
    | none => some (s, [.thrown v t])
    | some c =>
      match cast c t with
      | some x => some (s, [.got v t x])
      | none => some (s, [.thrown v t])

/-! ## The specification: a variable holds the value last stored in it -/

/-- Contents of the variables after an event, every variable having its own value. (Concerns co_any.h:20-77.) -/
def note {U : Univ} (f : Nat → Option (Cell U)) : Ev U → (Nat → Option (Cell U))
  | .store v t x => upd f v (some ⟨t, x⟩)
  | .copy v w => upd f v (f w)
  | .put v t x => upd f v (some ⟨t, x⟩)
  | _ => f

/-- Specification: what each variable holds, if variables were values. (Concerns co_any.h:20-77.) -/
def contents {U : Univ} (es : List (Ev U)) : Nat → Option (Cell U) := es.foldl note (fun _ => none)

/-- Variables that have not taken part in a copy since something was last stored in them. (Concerns co_any.h:20-77.) -/
def soloNote {U : Univ} (f : Nat → Bool) : Ev U → (Nat → Bool)
  | .store v _ _ => upd f v true
  | .copy v w => upd (upd f v false) w false
  | _ => f

/-- Specification: the variable was never part of a copy since it was last stored to. (Concerns co_any.h:20-77.) -/
def solo {U : Univ} (es : List (Ev U)) : Nat → Bool := es.foldl soloNote (fun _ => true)

/-- Histories in which `get<T>() = x` is applied only to variables that have not been copied (from or to) since they were
last stored to. (Concerns co_any.h:20-77.) -/
def Unshared {U : Univ} (es : List (Ev U)) : Prop := ∀ pre post v t x, es = pre ++ .put v t x :: post → solo pre v = true

/-- Proof device: the invariant. (Concerns co_any.h:20-77.) -/
structure Inv {U : Univ} (s : State U) (tr : List (Ev U)) : Prop where
  bound : ∀ v i, s.ptr v = some i → i < s.heap.length
  cell : ∀ v, s.cell v = contents tr v
  solo : ∀ v w i, solo tr v = true → v ≠ w → s.ptr v = some i → s.ptr w ≠ some i

theorem contents_snoc {U : Univ} (tr : List (Ev U)) (e : Ev U) : contents (tr ++ [e]) = note (contents tr) e := by
  simp [contents]

theorem solo_snoc {U : Univ} (tr : List (Ev U)) (e : Ev U) : solo (tr ++ [e]) = soloNote (solo tr) e := by
  simp [solo]

theorem inv_step {U : Univ} {s s' : State U} {a : Act U} {es tr : List (Ev U)} (hI : Inv s tr)
    (hu : Unshared (tr ++ es)) (hs : step s a = some (s', es)) : Inv s' (tr ++ es) := by
  cases a with
  | store v t x =>
    simp only [step, Option.some.injEq, Prod.mk.injEq] at hs
    obtain ⟨rfl, rfl⟩ := hs
    refine ⟨?_, ?_, ?_⟩
    · intro w i hi
      simp only [upd] at hi
      simp only [List.length_append, List.length_singleton]
      split at hi
      · simp only [Option.some.injEq] at hi; omega
      · have := hI.bound w i hi; omega
    · intro w
      rw [contents_snoc]
      simp only [note, State.cell, upd]
      split
      · simp
      · rw [← hI.cell w]
        simp only [State.cell]
        cases hp : s.ptr w with
        | none => rfl
        | some i =>
          have := hI.bound w i hp
          simp [List.getElem?_append_left this]
    · intro w w' i hw hne hi hi'
      rw [solo_snoc] at hw
      simp only [soloNote, upd] at hw hi hi'
      split at hi
      · rename_i hv
        simp only [Option.some.injEq] at hi
        rw [if_neg (by rw [← hv]; exact fun e => hne e.symm)] at hi'
        have := hI.bound w' i hi'
        omega
      · rename_i hv
        rw [if_neg hv] at hw
        split at hi'
        · simp only [Option.some.injEq] at hi'
          have := hI.bound w i hi
          omega
        · exact hI.solo w w' i hw hne hi hi'
  | copy v w =>
    simp only [step, Option.some.injEq, Prod.mk.injEq] at hs
    obtain ⟨rfl, rfl⟩ := hs
    refine ⟨?_, ?_, ?_⟩
    · intro u i hi
      simp only [upd] at hi
      split at hi
      · exact hI.bound w i hi
      · exact hI.bound u i hi
    · intro u
      rw [contents_snoc]
      simp only [note, State.cell, upd]
      split
      · rw [← hI.cell w]; rfl
      · rw [← hI.cell u]; rfl
    · intro u u' i hu' hne hi hi'
      rw [solo_snoc] at hu'
      simp only [soloNote, upd] at hu' hi hi'
      split at hu'
      · simp at hu'
      · split at hu'
        · simp at hu'
        · rename_i h1 h2
          rw [if_neg h2] at hi
          split at hi'
          · exact hI.solo u w i hu' h1 hi hi'
          · exact hI.solo u u' i hu' hne hi hi'
  | put v t x =>
    simp only [step] at hs
    split at hs
    · rename_i hp
      simp only [Option.some.injEq, Prod.mk.injEq] at hs
      obtain ⟨rfl, rfl⟩ := hs
      exact ⟨hI.bound, by rw [contents_snoc]; exact hI.cell, by rw [solo_snoc]; exact hI.solo⟩
    · rename_i i hp
      split at hs
      · simp at hs
      · rename_i c hc
        split at hs <;> (simp only [Option.some.injEq, Prod.mk.injEq] at hs; obtain ⟨rfl, rfl⟩ := hs)
        · have hso : solo tr v = true := hu tr [] v t x rfl
          have hlt := hI.bound v i hp
          refine ⟨by simpa using hI.bound, ?_, by rw [solo_snoc]; exact hI.solo⟩
          intro w
          rw [contents_snoc]
          simp only [note, State.cell, upd]
          split
          · rename_i hw
            subst hw
            simp [hp, hlt]
          · rename_i hw
            rw [← hI.cell w]
            simp only [State.cell]
            cases hp' : s.ptr w with
            | none => rfl
            | some j =>
              have hj : j ≠ i := fun e => hI.solo v w i hso (fun e => hw e.symm) hp (e ▸ hp')
              simp [List.getElem?_set_ne (Ne.symm hj)]
        · exact ⟨hI.bound, by rw [contents_snoc]; exact hI.cell, by rw [solo_snoc]; exact hI.solo⟩
  | get v t =>
    simp only [step] at hs
    split at hs
    · simp only [Option.some.injEq, Prod.mk.injEq] at hs
      obtain ⟨rfl, rfl⟩ := hs
      exact ⟨hI.bound, by rw [contents_snoc]; exact hI.cell, by rw [solo_snoc]; exact hI.solo⟩
    · split at hs <;> (simp only [Option.some.injEq, Prod.mk.injEq] at hs; obtain ⟨rfl, rfl⟩ := hs) <;>
        exact ⟨hI.bound, by rw [contents_snoc]; exact hI.cell, by rw [solo_snoc]; exact hI.solo⟩

theorem inv_runs {U : Univ} (as : List (Act U)) (s : State U) (es : List (Ev U))
    (h : runs step (State.init U) as = some (s, es)) (hu : Unshared es) : Inv s es := by
  have := runs_hist (step := step) (fun s tr => Unshared tr → Inv (U := U) s tr)
    (fun s a s' es tr hI hs hu => by
      refine inv_step (hI ?_) hu hs
      intro pre post v t x he
      exact hu pre (post ++ es) v t x (by rw [he]; simp))
    as (State.init U) s es [] (fun _ => by constructor <;> simp [State.init, State.cell, contents]) h
  simpa using this hu

/-- **C78.** After any history (`get<T>() = x` only on unshared variables, see C79), `get<t>` returns the value last stored in
the variable if it was stored as a `t`, and throws if it was stored as something else or nothing was stored. -/
theorem C78_get_type_safe {U : Univ} (as : List (Act U)) (s : State U) (es : List (Ev U)) (v : Nat) (t : U.Ty)
    (h : runs step (State.init U) as = some (s, es)) (hu : Unshared es) :
    (∀ x, contents es v = some ⟨t, x⟩ → step s (.get v t) = some (s, [.got v t x])) ∧
    (∀ t' x, contents es v = some ⟨t', x⟩ → t' ≠ t → step s (.get v t) = some (s, [.thrown v t])) ∧
    (contents es v = none → step s (.get v t) = some (s, [.thrown v t])) := by
  have hI := inv_runs as s es h hu
  have hc := hI.cell v
  refine ⟨?_, ?_, ?_⟩
  · intro x hx
    rw [hx] at hc
    simp [step, hc, cast]
  · intro t' x hx hne
    rw [hx] at hc
    simp [step, hc, cast, hne]
  · intro hx
    rw [hx] at hc
    simp [step, hc]

theorem bound_runs {U : Univ} (as : List (Act U)) (s : State U) (es : List (Ev U))
    (h : runs step (State.init U) as = some (s, es)) : ∀ v i, s.ptr v = some i → i < s.heap.length := by
  refine runs_inv (step := step) (fun s : State U => ∀ v i, s.ptr v = some i → i < s.heap.length) ?_ as _ s es
    (by simp [State.init]) h
  intro s a s' es hI hs
  cases a with
  | store v t x =>
    simp only [step, Option.some.injEq, Prod.mk.injEq] at hs
    obtain ⟨rfl, rfl⟩ := hs
    intro w i hi
    simp only [upd] at hi
    simp only [List.length_append, List.length_singleton]
    split at hi
    · simp only [Option.some.injEq] at hi; omega
    · have := hI w i hi; omega
  | copy v w =>
    simp only [step, Option.some.injEq, Prod.mk.injEq] at hs
    obtain ⟨rfl, rfl⟩ := hs
    intro u i hi
    simp only [upd] at hi
    split at hi
    · exact hI w i hi
    · exact hI u i hi
  | put v t x =>
    simp only [step] at hs
    repeat' split at hs
    all_goals simp only [Option.some.injEq, Prod.mk.injEq, reduceCtorEq] at hs
    all_goals obtain ⟨rfl, rfl⟩ := hs
    all_goals first | exact hI | simpa using hI
  | get v t =>
    simp only [step] at hs
    repeat' split at hs
    all_goals simp only [Option.some.injEq, Prod.mk.injEq] at hs
    all_goals obtain ⟨rfl, rfl⟩ := hs
    all_goals exact hI

/-- **C78, every history.** Also with shared copies every operation either succeeds or throws: no pointer is ever dangling. -/
theorem C78_never_stuck {U : Univ} (as : List (Act U)) (s : State U) (es : List (Ev U)) (a : Act U)
    (h : runs step (State.init U) as = some (s, es)) : ∃ s' es', step s a = some (s', es') := by
  have hb := bound_runs as s es h
  cases a with
  | store v t x => exact ⟨_, _, rfl⟩
  | copy v w => exact ⟨_, _, rfl⟩
  | put v t x =>
    simp only [step]
    split
    · exact ⟨_, _, rfl⟩
    · rename_i i hi
      have := hb v i hi
      rw [List.getElem?_eq_getElem this]
      simp only
      split <;> exact ⟨_, _, rfl⟩
  | get v t =>
    simp only [step]
    split
    · exact ⟨_, _, rfl⟩
    · split <;> exact ⟨_, _, rfl⟩

/-- **C79, the part that holds.** Storing a new value into one variable never changes another, copied or not. -/
theorem C79_store_independent_partial {U : Univ} (as : List (Act U)) (s s' : State U) (es es' : List (Ev U)) (v w : Nat) (t : U.Ty)
    (x : U.Val t) (h : runs step (State.init U) as = some (s, es)) (hne : w ≠ v)
    (hs : step s (.store v t x) = some (s', es')) : ∀ t', (step s' (.get w t')).map (·.2) = (step s (.get w t')).map (·.2) := by
  have hb := bound_runs as s es h
  simp only [step, Option.some.injEq, Prod.mk.injEq] at hs
  obtain ⟨rfl, rfl⟩ := hs
  have hc : (⟨s.heap ++ [⟨t, x⟩], upd s.ptr v (some s.heap.length)⟩ : State U).cell w = s.cell w := by
    simp only [State.cell, upd, if_neg hne]
    cases hp : s.ptr w with
    | none => rfl
    | some i => simp [List.getElem?_append_left (hb w i hp)]
  intro t'
  simp only [step, hc]
  cases s.cell w with
  | none => rfl
  | some c => simp only; cases cast c t' <;> rfl

/-- **C79, negation.** Whatever `v` holds: after `w = v` and `w.get<t>() = x` (with the right type), `v.get<t>()` is `x`. -/
theorem C79_copies_alias {U : Univ} (as : List (Act U)) (s s1 s2 : State U) (es e1 e2 : List (Ev U)) (v w : Nat) (t : U.Ty)
    (x : U.Val t) (h : runs step (State.init U) as = some (s, es)) (h1 : step s (.copy w v) = some (s1, e1))
    (h2 : step s1 (.put w t x) = some (s2, e2)) (hok : e2 = [.put w t x]) :
    step s2 (.get v t) = some (s2, [.got v t x]) := by
  have hb := bound_runs as s es h
  simp only [step, Option.some.injEq, Prod.mk.injEq] at h1
  obtain ⟨rfl, rfl⟩ := h1
  simp only [step, upd, if_true] at h2
  subst hok
  cases hp : s.ptr v with
  | none => simp [hp] at h2
  | some i =>
    simp only [hp] at h2
    split at h2
    · simp at h2
    · split at h2
      · simp only [Option.some.injEq, Prod.mk.injEq, and_true] at h2
        subst h2
        have hlt := hb v i hp
        by_cases hvw : v = w
        · simp [step, State.cell, upd, hvw, hlt, cast]
        · simp [step, State.cell, upd, hvw, hp, hlt, cast]
      · simp at h2

/-! ## Examples -/

/-- Two types: numbers and booleans. (Concerns co_any.h:20-77.) -/
def demoU : Univ := ⟨Bool, fun b => if b then Nat else Bool, inferInstance⟩

/-- Example value. (Concerns co_any.h:20-77.) -/
def nat (n : Nat) : demoU.Val true := n
/-- Example value. (Concerns co_any.h:20-77.) -/
def boo (b : Bool) : demoU.Val false := b

/-- Store 5 as a number, copy, overwrite the copy with a boolean: the original still holds 5 and is no boolean. -/
example : ∃ s, runs step (State.init demoU) [.store 0 true (nat 5), .copy 1 0, .store 1 false (boo true)] =
      some (s, [.store 0 true (nat 5), .copy 1 0, .store 1 false (boo true)]) ∧
    step s (.get 0 true) = some (s, [.got 0 true (nat 5)]) ∧ step s (.get 0 false) = some (s, [.thrown 0 false]) ∧
    step s (.get 2 true) = some (s, [.thrown 2 true]) :=
  ⟨_, rfl, rfl, rfl, rfl⟩

/-- A variable that was copied and then stored to may be written to again: the hypothesis `Unshared` of C78 does not exclude it; it does exclude the witness of C79. -/
example : Unshared ([.store 0 true (nat 5), .copy 1 0, .store 1 true (nat 7), .put 1 true (nat 6)] : List (Ev demoU)) ∧
    ¬ Unshared ([.store 0 true (nat 5), .copy 1 0, .put 1 true (nat 6)] : List (Ev demoU)) := by
  refine ⟨fun pre post v t x h => ?_, fun h => ?_⟩
  · match pre, h with
    | [], h => simp at h
    | [_], h => simp at h
    | [_, _], h => simp at h
    | [_, _, _], h =>
      simp only [List.cons_append, List.nil_append, List.cons.injEq, Ev.put.injEq] at h
      obtain ⟨rfl, rfl, rfl, ⟨rfl, _⟩, _⟩ := h
      rfl
    | _ :: _ :: _ :: _ :: pre, h => simp at h
  · have := h [.store 0 true (nat 5), .copy 1 0] [] 1 true (nat 6) rfl
    simp [solo, soloNote, upd] at this

/-- **C79, witness.** Writing 6 through the copy changes the original. -/
theorem C79_witness : ∃ s, runs step (State.init demoU) [.store 0 true (nat 5), .copy 1 0, .put 1 true (nat 6)] =
      some (s, [.store 0 true (nat 5), .copy 1 0, .put 1 true (nat 6)]) ∧
    step s (.get 0 true) = some (s, [.got 0 true (nat 6)]) ∧
    contents ([.store 0 true (nat 5), .copy 1 0, .put 1 true (nat 6)] : List (Ev demoU)) 0 = some ⟨true, nat 5⟩ :=
  ⟨_, rfl, rfl, rfl⟩

end Verif.Any
