import Verif.Base.Lts

/-!
# Deferred actions (C138)

`CoDefer(...)` declares a local object whose destructor calls the given function (include/cocpp/utils/co_defer.h:9-24,
source/cocpp/utils/co_defer.cpp:8-16). Coroutines are arbitrary programs: at any time the running code of a coroutine may open a block,
declare a variable or a deferred action, leave the block, or throw; deferred actions are arbitrary code of the same kind. The rules of
C++ for local objects are modelled: at the end of a block, or when an exception leaves it, its objects are destroyed in reverse order;
destructors do not let exceptions out. A coroutine is at the bottom of its stack caught by `real_entry` (co_ctx.cpp:67-74), and can be
destroyed unfinished by `remove_all_ctx__` (co_env.cpp:429-434), which releases its stack and runs nothing on it.
-/

namespace Verif.Defer
open Verif

/-- Local objects: variables, and objects of class `co_defer` (co_defer.h:9-17), with `empty` if the `std::function` in it is empty. -/
inductive Obj
  | var (x : Nat)
  | act (d : Nat) (empty : Bool)
deriving DecidableEq, Repr

/-- What a piece of running code is: a block, a block with a handler for all exceptions, or the function of `co_defer` object `d`, called by
its destructor (co_defer.cpp:15). -/
inductive Kind
  | block
  | tryBlk
  | call (d : Nat)
deriving DecidableEq, Repr

/-- Does the code run, is it being left, or does an exception leave it (C++; co_defer.cpp:13 runs in the last two)? -/
inductive Mode
  | run
  | leave
  | unwind
deriving DecidableEq, Repr

/-- A block in execution with its objects, the latest first (co_defer.h:21: a `co_defer` is such an object). -/
structure Frame where
  kind : Kind
  objs : List Obj
  mode : Mode
deriving DecidableEq, Repr

/-- `frames t`: the blocks coroutine `t` is in, the innermost first (co_ctx.cpp:69). `next`: names not yet used. `dead`:
`std::terminate` has been called, because an exception left the destructor (co_defer.cpp:13-16). -/
structure St where
  frames : Nat → List Frame
  began : Nat → Bool
  next : Nat
  dead : Bool

/-- Before any coroutine runs (co_ctx.cpp:65). -/
def St.init : St := ⟨fun _ => [], fun _ => false, 0, false⟩

/-- What the code of coroutine `t` does next, or what happens to it (co_ctx.cpp:69, co_defer.h:21, co_defer.cpp:13-16,
co_env.cpp:429-434). `next`: one step of leaving a block. -/
inductive Act
  | start (t : Nat)
  | enter (t : Nat) (handler : Bool)
  | var (t : Nat)
  | defer (t : Nat) (empty : Bool)
  | leave (t : Nat)
  | throw (t : Nat)
  | next (t : Nat)
  | kill (t : Nat)
deriving DecidableEq, Repr

/-- What is seen (co_defer.cpp:8-16, co_ctx.cpp:65-83). -/
inductive Ev
  | started (t : Nat)
  | entered (t : Nat)
  | declVar (t x : Nat)
  | declAct (t d : Nat)
  | gone (t x : Nat)
  | called (t d : Nat)
  | returned (t d : Nat)
  | left (t : Nat)
  | threw (t : Nat)
  | over (t : Nat)
  | killed (t : Nat)
  | terminated (t : Nat)
deriving DecidableEq, Repr

/-- The end of a block whose objects are gone: a handler or `real_entry` stops an exception (co_ctx.cpp:67-74), a block passes it on, a
destructor ends the program (co_defer.cpp:13-16, `noexcept` by default). -/
def finish (s : St) (t : Nat) (k : Kind) (m : Mode) (fs : List Frame) : St × List Ev :=
  match k, m, fs with
  | .block, _, [] => ({ s with frames := upd s.frames t [] }, [.over t])
  | .block, .unwind, g :: gs => ({ s with frames := upd s.frames t ({ g with mode := .unwind } :: gs) }, [.left t])
  | .block, _, g :: gs => ({ s with frames := upd s.frames t (g :: gs) }, [.left t])
  | .tryBlk, _, fs => ({ s with frames := upd s.frames t fs }, [.left t])
  | .call _, .unwind, _ => ({ s with dead := true }, [.terminated t])
  | .call d, _, fs => ({ s with frames := upd s.frames t fs }, [.returned t d])

/-- One step of leaving: the latest object is destroyed (co_defer.cpp:13-16); an empty function throws `bad_function_call`. -/
def unroll (s : St) (t : Nat) (f : Frame) (fs : List Frame) : St × List Ev :=
  match f.objs with
  | .var x :: os => ({ s with frames := upd s.frames t ({ f with objs := os } :: fs) }, [.gone t x])
  | .act _ true :: _ => ({ s with dead := true }, [.terminated t])
  | .act d false :: os =>
    ({ s with frames := upd s.frames t (⟨.call d, [], .run⟩ :: { f with objs := os } :: fs) }, [.called t d])
  | [] => finish s t f.kind f.mode fs

/-- One step (co_defer.h:21-24, co_defer.cpp:8-16, co_ctx.cpp:65-83, co_env.cpp:429-434). -/
def step (s : St) (a : Act) : Option (St × List Ev) :=
  if s.dead then none else
  match a with
  | .start t =>
    if s.began t then none
    else some ({ s with began := upd s.began t true, frames := upd s.frames t [⟨.block, [], .run⟩] }, [.started t])
  | .enter t h =>
    match s.frames t with
    | [] => none
    | f :: fs =>
      if f.mode = .run then
        some ({ s with frames := upd s.frames t (⟨if h then .tryBlk else .block, [], .run⟩ :: f :: fs) }, [.entered t])
      else none
  | .var t =>
    match s.frames t with
    | [] => none
    | f :: fs =>
      if f.mode = .run then
        some ({ s with frames := upd s.frames t ({ f with objs := .var s.next :: f.objs } :: fs), next := s.next + 1 },
          [.declVar t s.next])
      else none
  | .defer t b =>
    match s.frames t with
    | [] => none
    | f :: fs =>
      if f.mode = .run then
        some ({ s with frames := upd s.frames t ({ f with objs := .act s.next b :: f.objs } :: fs), next := s.next + 1 },
          [.declAct t s.next])
      else none
  | .leave t =>
    match s.frames t with
    | [] => none
    | f :: fs =>
      if f.mode = .run then some ({ s with frames := upd s.frames t ({ f with mode := .leave } :: fs) }, []) else none
  | .throw t =>
    match s.frames t with
    | [] => none
    | f :: fs =>
      if f.mode = .run then some ({ s with frames := upd s.frames t ({ f with mode := .unwind } :: fs) }, [.threw t]) else none
  | .next t =>
    match s.frames t with
    | [] => none
    | f :: fs => if f.mode = .run then none else some (unroll s t f fs)
  | .kill t =>
    match s.frames t with
    | [] => none
    | _ :: _ => some ({ s with frames := upd s.frames t [] }, [.killed t])

/-! ## What a program expects of one coroutine, in terms of what is seen -/

/-- What is open: a block, a variable that exists, an action that is still to be run, an action that runs (a specification; nothing in
/repo; for co_defer.h:9-24). -/
inductive Item
  | scope
  | var (x : Nat)
  | act (d : Nat)
  | busy (d : Nat)
deriving DecidableEq, Repr

/-- Everything is closed in the reverse order: a block can be left only when each action declared in it has run and returned; an action
runs only as the latest object (a specification; nothing in /repo; for co_defer.h:9-24). -/
def nest (t : Nat) (q : List Item) : Ev → Option (List Item)
  | .started u => if u = t then (if q = [] then some [.scope] else none) else some q
  | .entered u => if u = t then some (.scope :: q) else some q
  | .declVar u x => if u = t then some (.var x :: q) else some q
  | .declAct u d => if u = t then some (.act d :: q) else some q
  | .gone u x => if u = t then (if q.head? = some (.var x) then some q.tail else none) else some q
  | .called u d => if u = t then (if q.head? = some (.act d) then some (.busy d :: q.tail) else none) else some q
  | .returned u d => if u = t then (if q.head? = some (.busy d) then some q.tail else none) else some q
  | .left u => if u = t then (if q.head? = some .scope then some q.tail else none) else some q
  | .over u => if u = t then (if q = [.scope] then some [] else none) else some q
  | .killed u => if u = t then some [] else some q
  | .threw _ => some q
  | .terminated _ => some q

/-! ## Proofs -/

/-- Proof helper: what an object is to the specification (co_defer.h:9-17). -/
def Obj.item : Obj → Item
  | .var x => .var x
  | .act d _ => .act d

/-- Proof helper: what a block is to the specification (co_defer.cpp:15). -/
def Kind.item : Kind → Item
  | .block => .scope
  | .tryBlk => .scope
  | .call d => .busy d

/-- Proof helper: what is open according to the model (co_defer.h:9-24). -/
def items : List Frame → List Item
  | [] => []
  | f :: fs => f.objs.map Obj.item ++ f.kind.item :: items fs

/-- Proof helper: started coroutines only have blocks (co_ctx.cpp:65-69). -/
def Began (s : St) : Prop := ∀ t, s.began t = false → s.frames t = []

/-- Proof helper: takes a step apart into its cases (nothing in /repo). -/
local macro "cases_step" h:ident : tactic => `(tactic| (
  simp only [step, unroll, finish] at $h:ident
  (repeat' split at $h:ident) <;> simp only [reduceCtorEq, Option.some.injEq, Prod.mk.injEq] at $h:ident <;>
    (obtain ⟨hs, he⟩ := $h:ident; subst hs; subst he)))

theorem began_step {s s' : St} {a : Act} {es : List Ev} (hi : Began s) (h : step s a = some (s', es)) : Began s' := by
  intro u
  have hu := hi u
  cases a <;> cases_step h <;> grind [upd]

theorem nest_step (u : Nat) {s s' : St} {a : Act} {es : List Ev} (hi : Began s) (h : step s a = some (s', es)) :
    accepts (nest u) (items (s.frames u)) es = some (items (s'.frames u)) := by
  have hb := hi u
  cases a <;> cases_step h <;> grind [upd, items, accepts, nest, Kind.item, Obj.item]

theorem nest_runs (u : Nat) : ∀ (as : List Act) (s s' : St) (es : List Ev), Began s → runs step s as = some (s', es) →
    accepts (nest u) (items (s.frames u)) es = some (items (s'.frames u)) := by
  intro as
  induction as with
  | nil => intro s s' es _ h; simp [runs] at h; obtain ⟨rfl, rfl⟩ := h; rfl
  | cons a as ih =>
    intro s s' es hb h
    obtain ⟨s1, e1, e2, h1, h2, rfl⟩ := runs_cons h
    rw [accepts_append, nest_step u hb h1]
    exact ih s1 s' e2 (began_step hb h1) h2

/-- C138 (nesting): in every execution, with any number of coroutines, any programs, exceptions and deferred actions that themselves
open blocks, declare and throw, what is seen of each coroutine is properly nested: a deferred action runs when its block is left, in
whatever way, after all objects declared later are gone and before any declared earlier; and a block is left only when all its actions have
run and returned. -/
theorem C138_nested (as : List Act) (s : St) (es : List Ev) (h : runs step St.init as = some (s, es)) (t : Nat) :
    ∃ q, accepts (nest t) [] es = some q :=
  ⟨_, nest_runs t as St.init s es (by intro t _; rfl) h⟩

/-- Proof helper: what is declared has a fresh name, and what has ended stays so (co_ctx.cpp:65-83, co_defer.h:15). -/
structure Inv (s : St) (tr : List Ev) : Prop where
  began : Began s
  fresh : ∀ t d, s.next ≤ d → Ev.declAct t d ∉ tr ∧ Ev.declVar t d ∉ tr
  once : ∀ t d, tr.count (Ev.declAct t d) ≤ 1 ∧ tr.count (Ev.declVar t d) ≤ 1
  over : ∀ t, Ev.over t ∈ tr ∨ Ev.killed t ∈ tr → s.began t = true ∧ s.frames t = []
  both : ∀ t, Ev.over t ∈ tr → Ev.killed t ∉ tr

theorem inv_step (s : St) (a : Act) (s' : St) (es tr : List Ev) (hi : Inv s tr) (h : step s a = some (s', es)) : Inv s' (tr ++ es) := by
  obtain ⟨hb, hf, ho, hv, hw⟩ := hi
  have hb' := began_step hb h
  have key : (∀ t d, Ev.declAct t d ∈ es ∨ Ev.declVar t d ∈ es → d = s.next ∧ s'.next = s.next + 1 ∧
      (es = [Ev.declAct t d] ∨ es = [Ev.declVar t d])) ∧ s.next ≤ s'.next := by
    cases a <;> cases_step h <;> grind
  have key2 : ∀ t, (s.began t = true → s.frames t = [] → s'.began t = true ∧ s'.frames t = []) ∧
      (Ev.over t ∈ es ∨ Ev.killed t ∈ es → s'.began t = true ∧ s'.frames t = [] ∧ s.frames t ≠ [] ∧
        ¬ (Ev.over t ∈ es ∧ Ev.killed t ∈ es)) := by
    intro u
    have hu := hb u
    cases a <;> cases_step h <;> grind [upd]
  refine ⟨hb', ?_, ?_, ?_, ?_⟩
  · intro t d hd
    have k1 := key.1 t d
    have h1 := hf t d (by grind)
    grind
  · intro t d
    have k1 := key.1 t d
    have h1 := hf t d
    have h2 := ho t d
    by_cases hm : Ev.declAct t d ∈ es ∨ Ev.declVar t d ∈ es
    · obtain ⟨e1, e2, e3⟩ := k1 hm
      have h1 := h1 (by grind)
      have n1 : tr.count (Ev.declAct t d) = 0 := List.count_eq_zero.2 h1.1
      have n2 : tr.count (Ev.declVar t d) = 0 := List.count_eq_zero.2 h1.2
      rcases e3 with e3 | e3 <;> simp [List.count_append, e3, n1, n2]
    · have n1 : es.count (Ev.declAct t d) = 0 := List.count_eq_zero.2 (by grind)
      have n2 : es.count (Ev.declVar t d) = 0 := List.count_eq_zero.2 (by grind)
      simp [List.count_append, n1, n2, h2]
  · intro t ht
    have := key2 t
    have := hv t
    grind
  · intro t ht
    have := key2 t
    have := hv t
    have := hw t
    grind

theorem inv_runs {as : List Act} {s : St} {es : List Ev} (h : runs step St.init as = some (s, es)) : Inv s es := by
  have := runs_hist Inv inv_step as St.init s es []
    ⟨by intro t _; rfl, by simp, by simp, by simp, by simp⟩ h
  simpa using this

theorem count_step (t d : Nat) (q q' : List Item) (e : Ev) (h : nest t q e = some q') :
    (e ≠ .killed t → [e].count (Ev.called t d) + q'.count (.act d) = [e].count (Ev.declAct t d) + q.count (.act d) ∧
      [e].count (Ev.returned t d) + q'.count (.busy d) = [e].count (Ev.called t d) + q.count (.busy d) ∧
      [e].count (Ev.gone t d) + q'.count (.var d) = [e].count (Ev.declVar t d) + q.count (.var d)) ∧
    (e = .killed t → q' = []) := by
  refine ⟨fun hk => ?_, fun hk => by subst hk; simpa [nest] using h.symm⟩
  cases e <;> simp only [nest] at h <;> rcases q with _ | ⟨i, q⟩ <;> grind

theorem count_eq (t d : Nat) : ∀ (es : List Ev) (q q' : List Item), accepts (nest t) q es = some q' → Ev.killed t ∉ es →
    es.count (Ev.called t d) + q'.count (.act d) = es.count (Ev.declAct t d) + q.count (.act d) ∧
      es.count (Ev.returned t d) + q'.count (.busy d) = es.count (Ev.called t d) + q.count (.busy d) ∧
      es.count (Ev.gone t d) + q'.count (.var d) = es.count (Ev.declVar t d) + q.count (.var d) := by
  intro es
  induction es with
  | nil => intro q q' h _; simp [accepts] at h; subst h; simp
  | cons e es ih =>
    intro q q' h hk
    simp only [accepts, Option.bind_eq_some_iff] at h
    obtain ⟨q1, h1, h2⟩ := h
    have := (count_step t d q q1 e h1).1 (by grind)
    have := ih q1 q' h2 (by grind)
    have a1 := List.count_cons (a := Ev.called t d) (b := e) (l := es)
    have a2 := List.count_cons (a := Ev.returned t d) (b := e) (l := es)
    have a3 := List.count_cons (a := Ev.declAct t d) (b := e) (l := es)
    have a4 := List.count_cons (a := Ev.gone t d) (b := e) (l := es)
    have a5 := List.count_cons (a := Ev.declVar t d) (b := e) (l := es)
    simp only [List.count_cons, List.count_nil] at *
    omega

theorem count_le (t d : Nat) : ∀ (es : List Ev) (q q' : List Item), accepts (nest t) q es = some q' →
    es.count (Ev.called t d) + q'.count (.act d) ≤ es.count (Ev.declAct t d) + q.count (.act d) ∧
      es.count (Ev.returned t d) + q'.count (.busy d) ≤ es.count (Ev.called t d) + q.count (.busy d) := by
  intro es
  induction es with
  | nil => intro q q' h; simp [accepts] at h; subst h; simp
  | cons e es ih =>
    intro q q' h
    simp only [accepts, Option.bind_eq_some_iff] at h
    obtain ⟨q1, h1, h2⟩ := h
    have k := count_step t d q q1 e h1
    have := ih q1 q' h2
    by_cases hk : e = .killed t
    · have hq := k.2 hk
      subst hk
      subst hq
      simp at *
      omega
    · have := k.1 hk
      simp only [List.count_cons, List.count_nil] at *
      omega

/-- C138 (exactly once): in every execution no deferred action is run more often than it was declared, which is at most once; and when a
coroutine has ended, by returning or by an exception, each action it declared has been run and has returned exactly once. -/
theorem C138_exactly_once (as : List Act) (s : St) (es : List Ev) (h : runs step St.init as = some (s, es)) (t d : Nat) :
    es.count (Ev.returned t d) ≤ es.count (Ev.called t d) ∧ es.count (Ev.called t d) ≤ es.count (Ev.declAct t d) ∧
    es.count (Ev.declAct t d) ≤ 1 ∧
    (Ev.over t ∈ es → Ev.declAct t d ∈ es → es.count (Ev.called t d) = 1 ∧ es.count (Ev.returned t d) = 1) := by
  have hn := nest_runs t as St.init s es (by intro t _; rfl) h
  have hi := inv_runs h
  have hl := count_le t d es _ _ hn
  have ho := (hi.once t d).1
  simp only [St.init, items, List.count_nil] at hl
  refine ⟨by omega, by omega, ho, fun hov hd => ?_⟩
  have hfr := (hi.over t (.inl hov)).2
  have hk : Ev.killed t ∉ es := hi.both t hov
  have he := count_eq t d es _ _ hn hk
  have := List.count_pos_iff.2 hd
  simp only [St.init, items, hfr, List.count_nil] at he
  omega

/-- A run: coroutine 0 has a variable (0), a deferred action (1), a block with another (2), leaves the block by an exception that the
coroutine does not handle. Both actions run, the inner first, and the variable goes last (co_defer.h:21, co_ctx.cpp:67-74). -/
def demo : List Act :=
  [.start 0, .var 0, .defer 0 false, .enter 0 false, .defer 0 false, .start 1, .throw 0, .next 0, .leave 0, .next 0, .next 0, .next 0,
    .leave 0, .next 0, .next 0, .next 0]

example : (runs step St.init demo).map (·.2) = some [.started 0, .declVar 0 0, .declAct 0 1, .entered 0, .declAct 0 2, .started 1,
    .threw 0, .called 0 2, .returned 0 2, .left 0, .called 0 1, .returned 0 1, .gone 0 0, .over 0] := by decide

/-! ## Variables -/

/-- Proof helper: the stack `q0` lies under an action that is declared or runs (co_defer.h:21). -/
def Under (d : Nat) (q0 q : List Item) : Prop := (Item.act d :: q0) <:+ q ∨ (Item.busy d :: q0) <:+ q

theorem suffix_tail {α : Type} {a b : α} {l q : List α} (h : (a :: l) <:+ (b :: q)) : a :: l = b :: q ∨ (a :: l) <:+ q := by
  obtain ⟨p, hp⟩ := h
  rcases p with _ | ⟨c, p⟩
  · exact .inl hp
  · simp only [List.cons_append, List.cons.injEq] at hp
    exact .inr ⟨p, hp.2⟩

theorem under_step (t d : Nat) (q0 q q' : List Item) (e : Ev) (hq : q0 ≠ []) (hu : Under d q0 q) (h : nest t q e = some q')
    (hr : e ≠ .returned t d) (hk : e ≠ .killed t) : Under d q0 q' := by
  have push : ∀ i, Under d q0 (i :: q) := fun i => hu.imp (fun h => h.trans (List.suffix_cons i q)) (fun h => h.trans (List.suffix_cons i q))
  have hne : q ≠ [] := by
    rintro rfl
    rcases hu with hu | hu <;> simp at hu
  rcases q with _ | ⟨i, q⟩
  · exact absurd rfl hne
  have pop : i ≠ .act d → i ≠ .busy d → Under d q0 q := by
    intro h1 h2
    rcases hu with hu | hu
    · rcases suffix_tail hu with hu | hu
      · grind
      · exact .inl hu
    · rcases suffix_tail hu with hu | hu
      · grind
      · exact .inr hu
  have one : q ≠ [] := by
    rintro rfl
    rcases hu with ⟨p, hp⟩ | ⟨p, hp⟩ <;>
    · have := congrArg List.length hp
      have := List.length_pos_iff.2 hq
      simp at *
      omega
  cases e <;> simp only [nest] at h
  case called u c =>
    by_cases hut : u = t
    · by_cases hi : i = .act c
      · subst hi
        simp only [hut, if_true, List.head?_cons, List.tail_cons, Option.some.injEq] at h
        subst h
        by_cases hcd : c = d
        · subst hcd
          rcases hu with hu | hu
          · rcases suffix_tail hu with hu | hu
            · right
              simp only [List.cons.injEq] at hu
              rw [hu.2]
              exact List.suffix_refl _
            · exact .inl (hu.trans (List.suffix_cons _ _))
          · rcases suffix_tail hu with hu | hu
            · simp at hu
            · exact .inr (hu.trans (List.suffix_cons _ _))
        · have := pop (by grind) (by grind)
          exact this.imp (fun h => h.trans (List.suffix_cons _ _)) (fun h => h.trans (List.suffix_cons _ _))
      · grind
    · grind
  all_goals grind

theorem under_runs (t d : Nat) (q0 : List Item) (hq : q0 ≠ []) : ∀ (es : List Ev) (q q' : List Item), Under d q0 q →
    accepts (nest t) q es = some q' → Ev.returned t d ∉ es → Ev.killed t ∉ es → Under d q0 q' := by
  intro es
  induction es with
  | nil => intro q q' hu h _ _; simp [accepts] at h; exact h ▸ hu
  | cons e es ih =>
    intro q q' hu h hr hk
    simp only [accepts, Option.bind_eq_some_iff] at h
    obtain ⟨q1, h1, h2⟩ := h
    exact ih q1 q' (under_step t d q0 q q1 e hq hu h1 (by grind) (by grind)) h2 (by grind) (by grind)

/-- C138 (variables): what exists when an action is declared exists as long as the action has not returned, so the action, which has
references to everything (`[&]`), may use it: a variable that exists when the action is declared is not gone before the action has
returned, unless the coroutine is destroyed. -/
theorem C138_variables_exist (as : List Act) (s : St) (t d x : Nat) (p1 p2 : List Ev)
    (h : runs step St.init as = some (s, p1 ++ Ev.declAct t d :: p2)) (hx : Ev.declVar t x ∈ p1) (hg : Ev.gone t x ∉ p1)
    (hk : Ev.killed t ∉ p1 ++ Ev.declAct t d :: p2) (hr : Ev.returned t d ∉ p2) : Ev.gone t x ∉ p2 := by
  have hn := nest_runs t as St.init s _ (by intro t _; rfl) h
  have ho := ((inv_runs h).once t x).2
  simp only [St.init, items] at hn
  have hc := (count_eq t x _ _ _ hn hk).2.2
  rw [accepts_append, Option.bind_eq_some_iff] at hn
  obtain ⟨q1, h1, h2⟩ := hn
  have hc1 := (count_eq t x _ _ _ h1 (by grind)).2.2
  have g0 : p1.count (Ev.gone t x) = 0 := List.count_eq_zero.2 hg
  have v0 := List.count_pos_iff.2 hx
  have hq1 : 0 < q1.count (.var x) := by simp at hc1; omega
  have hmem : Item.var x ∈ q1 := List.count_pos_iff.1 hq1
  have hn1 : q1 ≠ [] := by rintro rfl; simp at hmem
  simp only [accepts, nest, if_true, Option.bind_some] at h2
  have hu := under_runs t d q1 hn1 p2 _ _ (.inl (List.suffix_refl _)) h2 hr (by grind)
  have hin : Item.var x ∈ items (s.frames t) := by
    rcases hu with hu | hu <;> exact hu.subset (List.mem_cons_of_mem _ hmem)
  have := List.count_pos_iff.2 hin
  intro hgone
  have := List.count_pos_iff.2 hgone
  have n1 : (Ev.declAct t d :: p2).count (Ev.gone t x) = p2.count (Ev.gone t x) := List.count_cons_of_ne (by simp)
  have n2 : (Ev.declAct t d :: p2).count (Ev.declVar t x) = p2.count (Ev.declVar t x) := List.count_cons_of_ne (by simp)
  rw [List.count_append, n2] at ho
  rw [List.count_append, List.count_append, n1, n2, List.count_nil] at hc
  omega

example : ∃ s p2, runs step St.init (demo.take 12) = some (s, [Ev.started 0, .declVar 0 0] ++ Ev.declAct 0 1 :: p2) ∧
    Ev.called 0 1 ∈ p2 ∧ Ev.gone 0 0 ∉ p2 := by
  have h : (runs step St.init (demo.take 12)).map (·.2) = some ([Ev.started 0, .declVar 0 0] ++ Ev.declAct 0 1 ::
      [.entered 0, .declAct 0 2, .started 1, .threw 0, .called 0 2, .returned 0 2, .left 0, .called 0 1]) := by decide
  obtain ⟨⟨s, es⟩, h1, rfl⟩ := Option.map_eq_some_iff.1 h
  exact ⟨s, _, h1, by decide, C138_variables_exist _ s 0 1 0 _ _ h1 (by decide) (by decide) (by decide) (by decide)⟩

/-! ## Exceptions in actions -/

/-- Is an exception thrown here caught before it leaves a deferred action: the innermost of handlers and actions is a handler, the
last handler being `real_entry` (co_defer.cpp:13-16, co_ctx.cpp:67-74)? -/
def Caught : List Frame → Prop
  | [] => True
  | f :: fs =>
    match f.kind with
    | .block => Caught fs
    | .tryBlk => True
    | .call _ => False

/-- Proof helper: an exception is on its way out of an action (co_defer.cpp:13-16). -/
def Doomed : List Frame → Prop
  | [] => False
  | f :: fs => (f.mode = .unwind ∧ ¬ Caught (f :: fs)) ∨ Doomed fs

/-- The program throws only where the exception does not leave a deferred action, and gives `co_defer` no empty function
(co_defer.cpp:13-16). -/
def Careful : St → List Act → Prop
  | _, [] => True
  | s, a :: as => (∀ t, a = .throw t → Caught (s.frames t)) ∧ (∀ t, a ≠ .defer t true) ∧
    ∀ s' es, step s a = some (s', es) → Careful s' as

/-- Proof helper: no empty function, no exception on its way out of an action, and the program has not been ended (co_defer.cpp:13-16). -/
structure Sound (s : St) : Prop where
  live : s.dead = false
  calm : ∀ t, ¬ Doomed (s.frames t)
  full : ∀ t f, f ∈ s.frames t → ∀ d, Obj.act d true ∉ f.objs

theorem sound_step {s s' : St} {a : Act} {es : List Ev} (hi : Sound s) (ht : ∀ t, a = .throw t → Caught (s.frames t))
    (he : ∀ t, a ≠ .defer t true) (h : step s a = some (s', es)) : Sound s' ∧ ∀ t, Ev.terminated t ∉ es := by
  obtain ⟨hl, hc, hf⟩ := hi
  have hf' : ∀ t f fs, s.frames t = f :: fs → ∀ d, Obj.act d true ∉ f.objs := fun t f fs h => hf t f (by simp [h])
  have key : s'.dead = false ∧ ∀ t, Ev.terminated t ∉ es := by
    cases a <;> cases_step h <;> grind [Doomed, Caught]
  refine ⟨⟨key.1, ?_, ?_⟩, key.2⟩
  · intro u
    have hu := hc u
    cases a <;> cases_step h <;> grind [upd, Doomed, Caught]
  · intro u f hfu d
    have hu := hf u
    cases a <;> cases_step h <;> grind [upd]

/-- C138 (careful programs): a program whose deferred actions let no exception out is never ended by one, whatever else it throws. -/
theorem C138_careful_not_terminated (as : List Act) (s : St) (es : List Ev) (h : runs step St.init as = some (s, es))
    (hc : Careful St.init as) (t : Nat) : Ev.terminated t ∉ es := by
  have : ∀ (as : List Act) (s0 s : St) (es : List Ev), Sound s0 → runs step s0 as = some (s, es) → Careful s0 as → Ev.terminated t ∉ es := by
    intro as
    induction as with
    | nil => intro s0 s es _ h _; simp [runs] at h; simp [h.2]
    | cons a as ih =>
      intro s0 s es hs h hc
      obtain ⟨s1, e1, e2, h1, h2, rfl⟩ := runs_cons h
      have hs1 := sound_step hs hc.1 hc.2.1 h1
      have := ih s1 s e2 hs1.1 h2 (hc.2.2 s1 e1 h1)
      have := hs1.2 t
      grind
  exact this as St.init s es ⟨rfl, by simp [St.init, Doomed], by simp [St.init]⟩ h hc

/-- An action that throws and catches is careful (co_defer.cpp:13-16). -/
example : Careful St.init [.start 0, .defer 0 false, .throw 0, .next 0, .enter 0 true, .throw 0, .next 0, .leave 0, .next 0, .next 0] := by
  simp [Careful, step, St.init, upd, Caught, unroll, finish]

example : (runs step St.init [.start 0, .defer 0 false, .throw 0, .next 0, .enter 0 true, .throw 0, .next 0, .leave 0, .next 0, .next 0]).map
    (·.2) = some [.started 0, .declAct 0 0, .threw 0, .called 0 0, .entered 0, .threw 0, .left 0, .returned 0 0, .over 0] := by decide

theorem doomed_step (u : Nat) {s s' : St} {a : Act} {es : List Ev} (hb : Began s) (hi : Doomed (s.frames u))
    (h : step s a = some (s', es)) :
    Ev.over u ∉ es ∧ (Ev.killed u ∈ es ∨ Doomed (s'.frames u)) := by
  have hbu := hb u
  cases a <;> cases_step h <;> grind [upd, Doomed, Caught]

/-! ## Coroutines that are destroyed -/

theorem quiet_step {t : Nat} {s s' : St} {a : Act} {es : List Ev} (hq : s.began t = true ∧ s.frames t = [])
    (h : step s a = some (s', es)) :
    (s'.began t = true ∧ s'.frames t = []) ∧ ∀ d, Ev.called t d ∉ es ∧ Ev.returned t d ∉ es := by
  obtain ⟨h1, h2⟩ := hq
  cases a <;> cases_step h <;> grind [upd]

/-- C138 (destroyed coroutines): what a coroutine deferred and has not run when it is destroyed (the env is stopped, co_env.cpp:415)
is never run: nothing of the coroutine is seen any more. -/
theorem C138_destroyed_never_runs (as : List Act) (s : St) (t d : Nat) (p1 p2 : List Ev)
    (h : runs step St.init as = some (s, p1 ++ Ev.killed t :: p2)) : Ev.called t d ∉ p2 ∧ Ev.returned t d ∉ p2 := by
  obtain ⟨as1, a, as2, s1, s2, r1, r2, c1, c2, -, h1, h2, h3, -, rfl⟩ := runs_split as St.init s p1 (.killed t) p2 h
  have hb := (inv_runs h1).began
  have key : c1 = [] ∧ s2.began t = true ∧ s2.frames t = [] := by
    have hbt := hb t
    generalize he : r2 ++ Ev.killed t :: c1 = es at h2
    have hk : Ev.killed t ∈ es := by grind
    have : es.length ≤ 1 ∧ s2.began t = true ∧ s2.frames t = [] := by
      clear he
      cases a <;> cases_step h2 <;> grind [upd]
    have := congrArg List.length he
    simp only [List.length_append, List.length_cons] at this
    exact ⟨List.eq_nil_of_length_eq_zero (by omega), by grind, by grind⟩
  obtain ⟨rfl, k1, k2⟩ := key
  have : ∀ (bs : List Act) (s2 s : St) (e : List Ev), s2.began t = true ∧ s2.frames t = [] → runs step s2 bs = some (s, e) →
      Ev.called t d ∉ e ∧ Ev.returned t d ∉ e := by
    intro bs
    induction bs with
    | nil => intro s2 s e _ h; simp [runs] at h; simp [h.2]
    | cons b bs ih =>
      intro s2 s e hq h
      obtain ⟨s3, e3, e4, h3, h4, rfl⟩ := runs_cons h
      have q3 := quiet_step hq h3
      have := ih s3 s e4 q3.1 h4
      have := q3.2 d
      grind
  simpa using this as2 s2 s c2 ⟨k1, k2⟩ h3

example : (runs step St.init [.start 0, .defer 0 false, .kill 0]).map (·.2) = some [.started 0, .declAct 0 0, .killed 0] := by decide

/-! ## Coming to an end -/

/-- Proof helper: how many steps an object costs at most (co_defer.cpp:13-16). -/
def Obj.cost : Obj → Nat
  | .var _ => 1
  | .act _ _ => 4

/-- Proof helper: how many steps leaving everything costs at most (co_defer.cpp:13-16, co_ctx.cpp:67-74). -/
def cost : List Frame → Nat
  | [] => 0
  | f :: fs => (if f.mode = .run then 2 else 1) + (f.objs.map Obj.cost).sum + cost fs

/-- Proof helper: the lowest block of a coroutine is its function (co_ctx.cpp:69). -/
def Bottom : List Frame → Prop
  | [] => True
  | f :: fs => (fs = [] → f.kind = .block) ∧ Bottom fs

theorem bottom_step (u : Nat) {s s' : St} {a : Act} {es : List Ev} (hi : Bottom (s.frames u)) (h : step s a = some (s', es)) :
    Bottom (s'.frames u) := by
  cases a <;> cases_step h <;> grind [upd, Bottom]

theorem end_step (s : St) (t : Nat) (hd : s.dead = false) (hf : s.frames t ≠ []) (hb : Bottom (s.frames t)) :
    ∃ a s' es, (a = .leave t ∨ a = .next t) ∧ step s a = some (s', es) ∧ Bottom (s'.frames t) ∧
      (Ev.over t ∈ es ∨ Ev.terminated t ∈ es ∨ (s'.dead = false ∧ s'.frames t ≠ [] ∧ cost (s'.frames t) < cost (s.frames t))) := by
  cases hs : s.frames t with
  | nil => exact absurd hs hf
  | cons f fs =>
    by_cases hm : f.mode = .run
    · have h1 : step s (.leave t) = some ({ s with frames := upd s.frames t ({ f with mode := .leave } :: fs) }, []) := by
        simp [step, hd, hs, hm]
      exact ⟨_, _, _, .inl rfl, h1, bottom_step t hb h1, .inr (.inr ⟨hd, by simp, by simp [cost, hm]⟩)⟩
    · have h1 : step s (.next t) = some (unroll s t f fs) := by simp [step, hd, hs, hm]
      refine ⟨_, (unroll s t f fs).1, (unroll s t f fs).2, .inr rfl, h1, bottom_step t hb h1, ?_⟩
      rw [hs] at hb
      obtain ⟨k, os, m⟩ := f
      simp only at hm
      rcases os with _ | ⟨o, os⟩
      · simp only [unroll, finish]
        cases k <;> cases m <;> rcases fs with _ | ⟨g, gs⟩ <;> simp_all [cost, Bottom] <;> (try split) <;> omega
      · rcases o with x | ⟨c, e⟩
        · simp [unroll, cost, Obj.cost, hd]
        · cases e <;> simp [unroll, cost, Obj.cost, hd, hm] <;> omega

/-- C138 (it comes to an end): in every reachable state a coroutine that declares nothing more and leaves its blocks comes to its
end, by its own steps alone, unless an exception that leaves an action ends the program. -/
theorem C138_comes_to_end (as : List Act) (s : St) (es : List Ev) (h : runs step St.init as = some (s, es)) (t : Nat)
    (hd : s.dead = false) (hf : s.frames t ≠ []) :
    ∃ bs s' e, (∀ a ∈ bs, a = .leave t ∨ a = .next t) ∧ runs step s bs = some (s', e) ∧ (Ev.over t ∈ e ∨ Ev.terminated t ∈ e) := by
  have hb : Bottom (s.frames t) :=
    runs_inv (fun s => Bottom (s.frames t)) (fun s a s' es hi h => bottom_step t hi h) as St.init s es (by simp [St.init, Bottom]) h
  have : ∀ (n : Nat) (s : St), cost (s.frames t) ≤ n → s.dead = false → s.frames t ≠ [] → Bottom (s.frames t) →
      ∃ bs s' e, (∀ a ∈ bs, a = .leave t ∨ a = .next t) ∧ runs step s bs = some (s', e) ∧ (Ev.over t ∈ e ∨ Ev.terminated t ∈ e) := by
    intro n
    induction n with
    | zero =>
      intro s hn _ hf _
      cases hs : s.frames t with
      | nil => exact absurd hs hf
      | cons f fs => simp only [hs, cost] at hn; split at hn <;> omega
    | succ n ih =>
      intro s hn hd hf hb
      obtain ⟨a, s1, e1, ha, h1, hb1, hc⟩ := end_step s t hd hf hb
      by_cases ho : Ev.over t ∈ e1 ∨ Ev.terminated t ∈ e1
      · exact ⟨[a], s1, e1, by simpa using ha, by simp [runs, h1], ho⟩
      · obtain ⟨bs, s', e, q1, q2, q3⟩ := ih s1 (by grind) (by grind) (by grind) hb1
        refine ⟨a :: bs, s', e1 ++ e, by grind, ?_, by grind⟩
        simp [runs, h1, q2]
  exact this _ s (Nat.le_refl _) hd hf hb

example : (runs step St.init ([.start 0, .var 0, .defer 0 false, .enter 0 true] ++ [.leave 0, .next 0, .leave 0, .next 0, .leave 0, .next 0, .next 0, .next 0])).map
    (fun r => decide (Ev.over 0 ∈ r.2)) = some true := by decide

/-! ## Actions that throw -/

/-- C138 (the code does not allow actions to throw): an exception that leaves a deferred action does not reach anybody: the coroutine
never ends normally afterwards, in no continuation, and as long as it exists its own steps lead to the end of the program
(co_defer.cpp:13-16, a destructor). -/
theorem C138_throwing_action (as : List Act) (s s1 s2 : St) (es e1 e2 : List Ev) (t : Nat) (bs : List Act)
    (h : runs step St.init as = some (s, es)) (hu : ¬ Caught (s.frames t)) (h1 : step s (.throw t) = some (s1, e1))
    (h2 : runs step s1 bs = some (s2, e2)) : Ev.over t ∉ e2 ∧
    (s2.dead = false → s2.frames t ≠ [] → ∃ cs s3 e3, (∀ a ∈ cs, a = .leave t ∨ a = .next t) ∧ runs step s2 cs = some (s3, e3) ∧
      Ev.terminated t ∈ e3) := by
  have hb1 : Began s1 := began_step (inv_runs h).began h1
  have hd1 : Doomed (s1.frames t) := by
    cases_step h1
    grind [upd, Doomed, Caught]
  have : ∀ (bs : List Act) (s1 s2 : St) (e2 : List Ev), Began s1 → (Doomed (s1.frames t) ∨ (s1.began t = true ∧ s1.frames t = [])) →
      runs step s1 bs = some (s2, e2) → Ev.over t ∉ e2 := by
    intro bs
    induction bs with
    | nil => intro s1 s2 e2 _ _ h; simp [runs] at h; simp [h.2]
    | cons b bs ih =>
      intro s1 s2 e2 hb hd h
      obtain ⟨s3, e3, e4, h3, h4, rfl⟩ := runs_cons h
      have hb3 := began_step hb h3
      have key : Ev.over t ∉ e3 ∧ (Doomed (s3.frames t) ∨ (s3.began t = true ∧ s3.frames t = [])) := by
        rcases hd with hd | hd
        · have := doomed_step t hb hd h3
          have hbt := hb t
          have : Ev.killed t ∈ e3 → s3.began t = true ∧ s3.frames t = [] := by
            clear this
            cases b <;> cases_step h3 <;> grind [upd]
          grind
        · obtain ⟨hd1, hd2⟩ := hd
          cases b <;> cases_step h3 <;> grind [upd]
      have := ih s3 s2 e4 hb3 key.2 h4
      grind
  refine ⟨this bs s1 s2 e2 hb1 (.inl hd1) h2, fun hd hf => ?_⟩
  have h01 : runs step s (.throw t :: bs) = some (s2, e1 ++ e2) := by simp [runs, h1, h2]
  obtain ⟨cs, s3, e3, q1, q2, q3⟩ := C138_comes_to_end _ s2 _ (runs_append h h01) t hd hf
  have := this (bs ++ cs) s1 s3 (e2 ++ e3) hb1 (.inl hd1) (runs_append h2 q2)
  exact ⟨cs, s3, e3, q1, q2, by grind⟩

example : (runs step St.init [.start 0, .defer 0 false, .leave 0, .next 0, .throw 0, .next 0]).map (·.2) =
    some [.started 0, .declAct 0 0, .called 0 0, .threw 0, .terminated 0] := by decide

end Verif.Defer
