import Verif.Util.Any

/-! # C80: coroutine local storage (include/cocpp/core/co_ctx.h:112-120, include/cocpp/co/co_co.h:97-99) -/

namespace Verif.Local

open Verif.Any

/-- Types with their value-initialised values (`make_shared<co_local<T>>()`, include/cocpp/core/co_local.h:15-30). -/
structure Univ0 extends Univ where
  zero : (t : Ty) → Val t

/-- `locals c n`: the object `locals__` of coroutine `c` maps the name `n` to. Objects carry the type they were created
with. (co_ctx.h:59, 112-120.) -/
structure State (U : Univ0) where
  heap : List (Cell U.toUniv)
  locals : Nat → String → Option Nat

/-- A fresh context has no locals (co_ctx.h:59). -/
def State.init (U : Univ0) : State U := ⟨[], fun _ _ => none⟩

/-- Uses of the macro (co_co.h:97-99). -/
inductive Act (U : Univ0)
  /-- coroutine `c` evaluates `CoLocal(n, t)` and reads it -/
  | read (c : Nat) (n : String) (t : U.Ty)
  /-- coroutine `c` executes `CoLocal(n, t) = x` -/
  | write (c : Nat) (n : String) (t : U.Ty) (x : U.Val t)

/-- What happened (no counterpart in the code). (Concerns co_ctx.h:59-120, co_co.h:97-99.) -/
inductive Ev (U : Univ0)
  /-- object `i` was returned and held `x` -/
  | read (c : Nat) (n : String) (t : U.Ty) (i : Nat) (x : U.Val t)
  | write (c : Nat) (n : String) (t : U.Ty) (i : Nat) (x : U.Val t)
  /-- the name was used with another type: `dynamic_pointer_cast` gives null, which is dereferenced -/
  | ub (c : Nat) (n : String) (t : U.Ty)

/-- co_ctx.h:115-118: create the object if the name is not there. -/
def State.ensure {U : Univ0} (s : State U) (c : Nat) (n : String) (t : U.Ty) : State U × Nat :=
  match s.locals c n with
  | some i => (s, i)
  | none => (⟨s.heap ++ [⟨t, U.zero t⟩], fun c' n' => if c' = c ∧ n' = n then some s.heap.length else s.locals c' n'⟩,
      s.heap.length)

/-- co_ctx.h:113-120 followed by the read or write through the returned reference. -/
def step {U : Univ0} (s : State U) : Act U → Option (State U × List (Ev U))
  | .read c n t =>
    let (s', i) := s.ensure c n t
    match s'.heap[i]? with
    | none => none
    | some o =>
      match cast o t with
      | some x => some (s', [.read c n t i x])
      | none => some (s', [.ub c n t])
  | .write c n t x =>
    let (s', i) := s.ensure c n t
    match s'.heap[i]? with
    | none => none
    | some o =>
      match cast o t with
      | some _ => some ({ s' with heap := s'.heap.set i ⟨t, x⟩ }, [.write c n t i x])
      | none => some (s', [.ub c n t])

/-! ## Specification: each coroutine has its own variable for each name -/

/-- Specification: the effect of an event on the variables. (Concerns co_ctx.h:59-120, co_co.h:97-99.) -/
def note {U : Univ0} (f : Nat → String → Option (Cell U.toUniv)) : Ev U → Nat → String → Option (Cell U.toUniv)
  | .read c n t _ x => fun c' n' => if c' = c ∧ n' = n then some ⟨t, x⟩ else f c' n'
  | .write c n t _ x => fun c' n' => if c' = c ∧ n' = n then some ⟨t, x⟩ else f c' n'
  | .ub _ _ _ => f

/-- What coroutine `c` last wrote to (or read from) its variable `n`. (Concerns co_ctx.h:59-120, co_co.h:97-99.) -/
def contents {U : Univ0} (es : List (Ev U)) : Nat → String → Option (Cell U.toUniv) := es.foldl note (fun _ _ => none)

/-- The object an event used. (Concerns co_ctx.h:59-120, co_co.h:97-99.) -/
def Ev.obj {U : Univ0} : Ev U → Option (Nat × String × Nat)
  | .read c n _ i _ => some (c, n, i)
  | .write c n _ i _ => some (c, n, i)
  | .ub _ _ _ => none

/-- Proof device: the invariant. (Concerns co_ctx.h:59-120, co_co.h:97-99.) -/
structure Inv {U : Univ0} (s : State U) (tr : List (Ev U)) : Prop where
  bound : ∀ c n i, s.locals c n = some i → i < s.heap.length
  inj : ∀ c n c' n' i, s.locals c n = some i → s.locals c' n' = some i → c = c' ∧ n = n'
  cell : ∀ c n, (s.locals c n).bind (fun i => s.heap[i]?) = contents tr c n
  objs : ∀ e ∈ tr, ∀ c n i, e.obj = some (c, n, i) → s.locals c n = some i

theorem contents_snoc {U : Univ0} (tr : List (Ev U)) (e : Ev U) : contents (tr ++ [e]) = note (contents tr) e := by
  simp [contents]

theorem cast_eq {U : Univ} {o : Cell U} {t : U.Ty} {x : U.Val t} (h : Verif.Any.cast o t = some x) : o = ⟨t, x⟩ := by
  unfold Verif.Any.cast at h
  split at h
  · rename_i ht
    obtain ⟨t', y⟩ := o
    simp only at ht
    subst ht
    simp only [Option.some.injEq] at h
    rw [h]
  · simp at h

/-- The state after `ensure`, as far as it matters. -/
theorem ensure_spec {U : Univ0} {s : State U} {tr : List (Ev U)} (hI : Inv s tr) (c : Nat) (n : String) (t : U.Ty) :
    let s' := (s.ensure c n t).1
    let i := (s.ensure c n t).2
    s'.locals c n = some i ∧ (∀ c n i, s'.locals c n = some i → i < s'.heap.length) ∧
      (∀ c n c' n' i, s'.locals c n = some i → s'.locals c' n' = some i → c = c' ∧ n = n') ∧
      (∀ c' n', ¬ (c' = c ∧ n' = n) → (s'.locals c' n').bind (fun i => s'.heap[i]?) = contents tr c' n') ∧
      s'.heap[i]? = some ((contents tr c n).getD ⟨t, U.zero t⟩) ∧
      (∀ c' n' j, s.locals c' n' = some j → s'.locals c' n' = some j) := by
  unfold State.ensure
  cases h : s.locals c n with
  | some i =>
    simp only
    refine ⟨h, hI.bound, hI.inj, fun c' n' _ => hI.cell c' n', ?_, fun _ _ _ h => h⟩
    have := hI.cell c n
    rw [h] at this
    simp only [Option.bind_some] at this
    have hb := hI.bound c n i h
    rw [← this, List.getElem?_eq_getElem hb]
    rfl
  | none =>
    simp only
    refine ⟨by simp, ?_, ?_, ?_, ?_, ?_⟩
    · intro c' n' i hi
      simp only [List.length_append, List.length_singleton]
      split at hi
      · simp only [Option.some.injEq] at hi; omega
      · have := hI.bound c' n' i hi; omega
    · intro c1 n1 c2 n2 i h1 h2
      split at h1 <;> split at h2
      · rename_i g1 g2; exact ⟨g1.1.trans g2.1.symm, g1.2.trans g2.2.symm⟩
      · simp only [Option.some.injEq] at h1
        have := hI.bound c2 n2 i h2; omega
      · simp only [Option.some.injEq] at h2
        have := hI.bound c1 n1 i h1; omega
      · exact hI.inj c1 n1 c2 n2 i h1 h2
    · intro c' n' hne
      rw [if_neg hne, ← hI.cell c' n']
      cases hp : s.locals c' n' with
      | none => rfl
      | some j => simp [List.getElem?_append_left (hI.bound c' n' j hp)]
    · have := hI.cell c n
      rw [h] at this
      simp only [Option.bind_none] at this
      rw [← this]
      simp
    · intro c' n' j hj
      rw [if_neg]
      · exact hj
      · rintro ⟨rfl, rfl⟩; rw [h] at hj; simp at hj

theorem inv_step {U : Univ0} {s s' : State U} {a : Act U} {es tr : List (Ev U)} (hI : Inv s tr)
    (hub : ∀ c n t, Ev.ub c n t ∉ es) (hs : step s a = some (s', es)) : Inv s' (tr ++ es) := by
  cases a with
  | read c n t =>
    simp only [step] at hs
    obtain ⟨e1, e2, e3, e4, e5, e6⟩ := ensure_spec hI c n t
    rw [e5] at hs
    simp only at hs
    split at hs
    · rename_i x hx
      simp only [Option.some.injEq, Prod.mk.injEq] at hs
      obtain ⟨rfl, rfl⟩ := hs
      have hcell : (contents tr c n).getD ⟨t, U.zero t⟩ = ⟨t, x⟩ := by
        exact cast_eq hx
      refine ⟨e2, e3, ?_, ?_⟩
      · intro c' n'
        rw [contents_snoc]
        simp only [note]
        split
        · rename_i hcn
          obtain ⟨rfl, rfl⟩ := hcn
          rw [e1]
          simp only [Option.bind_some]
          rw [e5, hcell]
        · rename_i hcn
          exact e4 c' n' hcn
      · intro e he c' n' i hi
        simp only [List.mem_append, List.mem_singleton] at he
        rcases he with he | rfl
        · exact e6 _ _ _ (hI.objs e he c' n' i hi)
        · simp only [Ev.obj, Option.some.injEq, Prod.mk.injEq] at hi
          obtain ⟨rfl, rfl, rfl⟩ := hi
          exact e1
    · simp only [Option.some.injEq, Prod.mk.injEq] at hs
      obtain ⟨rfl, rfl⟩ := hs
      exact absurd (List.mem_singleton.2 rfl) (hub c n t)
  | write c n t x =>
    simp only [step] at hs
    obtain ⟨e1, e2, e3, e4, e5, e6⟩ := ensure_spec hI c n t
    rw [e5] at hs
    simp only at hs
    split at hs
    · simp only [Option.some.injEq, Prod.mk.injEq] at hs
      obtain ⟨rfl, rfl⟩ := hs
      have hlt := e2 c n _ e1
      refine ⟨by simpa using e2, e3, ?_, ?_⟩
      · intro c' n'
        rw [contents_snoc]
        simp only [note]
        split
        · rename_i hcn
          obtain ⟨rfl, rfl⟩ := hcn
          rw [e1]
          simp [hlt]
        · rename_i hcn
          rw [← e4 c' n' hcn]
          cases hp : (s.ensure c n t).1.locals c' n' with
          | none => rfl
          | some j =>
            have : (s.ensure c n t).2 ≠ j := by
              intro e
              have := e3 c n c' n' _ e1 (e ▸ hp)
              exact hcn ⟨this.1.symm, this.2.symm⟩
            simp [List.getElem?_set_ne this]
      · intro e he c' n' i hi
        simp only [List.mem_append, List.mem_singleton] at he
        rcases he with he | rfl
        · exact e6 _ _ _ (hI.objs e he c' n' i hi)
        · simp only [Ev.obj, Option.some.injEq, Prod.mk.injEq] at hi
          obtain ⟨rfl, rfl, rfl⟩ := hi
          exact e1
    · simp only [Option.some.injEq, Prod.mk.injEq] at hs
      obtain ⟨rfl, rfl⟩ := hs
      exact absurd (List.mem_singleton.2 rfl) (hub c n t)

theorem inv_runs {U : Univ0} (as : List (Act U)) (s : State U) (es : List (Ev U))
    (h : runs step (State.init U) as = some (s, es)) (hub : ∀ c n t, Ev.ub c n t ∉ es) : Inv s es := by
  have := runs_hist (step := step) (fun s tr => (∀ c n t, Ev.ub c n t ∉ tr) → Inv (U := U) s tr)
    (fun s a s' es tr hI hs hu => inv_step (hI (fun c n t hm => hu c n t (List.mem_append_left _ hm)))
      (fun c n t hm => hu c n t (List.mem_append_right _ hm)) hs)
    as (State.init U) s es [] (fun _ => by constructor <;> simp [State.init, contents]) h
  simpa using this hub

/-- **C80, identity.** In every history in which no name is used with two types in the same coroutine, two uses get the same
object exactly if they were made by the same coroutine with the same name. -/
theorem C80_same_object_partial {U : Univ0} (as : List (Act U)) (s : State U) (es : List (Ev U))
    (h : runs step (State.init U) as = some (s, es)) (hub : ∀ c n t, Ev.ub c n t ∉ es)
    (e e' : Ev U) (he : e ∈ es) (he' : e' ∈ es) (c c' : Nat) (n n' : String) (i i' : Nat)
    (ho : e.obj = some (c, n, i)) (ho' : e'.obj = some (c', n', i')) : i = i' ↔ c = c' ∧ n = n' := by
  have hI := inv_runs as s es h hub
  have h1 := hI.objs e he c n i ho
  have h2 := hI.objs e' he' c' n' i' ho'
  constructor
  · rintro rfl; exact hI.inj _ _ _ _ _ h1 h2
  · rintro ⟨rfl, rfl⟩; rw [h1] at h2; simpa using h2

/-- **C80, contents.** In such a history `CoLocal(n, t)` holds what this coroutine last stored under this name, and the
value-initialised value on first use. -/
theorem C80_contents_partial {U : Univ0} (as : List (Act U)) (s s' : State U) (es : List (Ev U))
    (h : runs step (State.init U) as = some (s, es)) (hub : ∀ c n t, Ev.ub c n t ∉ es)
    (c : Nat) (n : String) (t : U.Ty) (i : Nat) (x : U.Val t)
    (hr : step s (.read c n t) = some (s', [.read c n t i x])) :
    (contents es c n = none ∧ x = U.zero t) ∨ contents es c n = some ⟨t, x⟩ := by
  have hI := inv_runs as s es h hub
  simp only [step] at hr
  obtain ⟨e1, e2, e3, e4, e5, e6⟩ := ensure_spec hI c n t
  rw [e5] at hr
  simp only at hr
  split at hr
  · rename_i y hy
    simp only [Option.some.injEq, Prod.mk.injEq, List.cons.injEq, Ev.read.injEq, heq_eq_eq, true_and, and_true] at hr
    obtain ⟨_, _, rfl⟩ := hr
    have := cast_eq hy
    cases hc : contents es c n with
    | none =>
      left
      rw [hc] at this
      simp only [Option.getD_none] at this
      exact ⟨rfl, (eq_of_heq (by cases this; rfl))⟩
    | some o =>
      right
      rw [hc] at this
      simp only [Option.getD_some] at this
      rw [this]
  · simp at hr

/-- Names used with one type only never lead to undefined behaviour. -/
theorem C80_defined_partial {U : Univ0} (as : List (Act U)) (s : State U) (es : List (Ev U))
    (h : runs step (State.init U) as = some (s, es)) (hub : ∀ c n t, Ev.ub c n t ∉ es) (c : Nat) (n : String) (t : U.Ty)
    (hty : ∀ o, contents es c n = some o → o.1 = t) : ∃ s' i x, step s (.read c n t) = some (s', [.read c n t i x]) := by
  have hI := inv_runs as s es h hub
  simp only [step]
  obtain ⟨e1, e2, e3, e4, e5, e6⟩ := ensure_spec hI c n t
  rw [e5]
  simp only
  have : ((contents es c n).getD ⟨t, U.zero t⟩).1 = t := by
    cases hc : contents es c n with
    | none => rfl
    | some o => exact hty o hc
  unfold Verif.Any.cast
  rw [dif_pos this]
  exact ⟨_, _, _, rfl⟩

/-- Example universe (no counterpart in the code). (Concerns co_ctx.h:59-120, co_co.h:97-99.) -/
def demoU : Univ0 := ⟨Verif.Any.demoU, fun b => match b with | true => (0 : Nat) | false => false⟩

/-- **C80, negation.** Using a name with two different types dereferences a null pointer. -/
theorem C80_two_types_ub : ∃ s, runs step (State.init demoU) [.read 0 "x" true, .read 0 "x" false] =
    some (s, [.read 0 "x" true 0 (0 : Nat), .ub 0 "x" false]) := ⟨_, rfl⟩

/-- Two coroutines use the same name: separate objects, initially zero. -/
example : ∃ s, runs step (State.init demoU)
      [.read 0 "x" true, .write 0 "x" true (7 : Nat), .read 1 "x" true, .read 0 "x" true, .read 0 "y" false] =
    some (s, [.read 0 "x" true 0 (0 : Nat), .write 0 "x" true 0 (7 : Nat), .read 1 "x" true 1 (0 : Nat),
      .read 0 "x" true 0 (7 : Nat), .read 0 "y" false 2 false]) := ⟨_, rfl⟩

end Verif.Local
