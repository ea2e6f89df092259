import Verif.Pipe.PipeLive

/-! # Pipelines whose functions throw (C96)

`Verif/Pipe/Pipe.lean` takes the functions the user gives for total. Here every call of one of them may throw instead. The coroutine of the
stage (include/cocpp/pipeline/co_pipeline.h) does not catch anything: its entry is left, `real_entry` stores the exception
(source/cocpp/core/co_ctx.cpp:67-74) and the coroutine ends, without closing its channel. It was detached (for example co_pipeline.h:199),
so nobody can ever look at the exception.

The workers of `fork` are joined: `join` rethrows the exception in the coroutine that joins them (co_pipeline.h:288-291, co.cpp:41-62),
which then destroys the other handles, whose destructors wait for the other workers (co.cpp:31-34) and, if one of these has thrown as
well, throw themselves: that is `std::terminate` (C89).

Simplified: only the functions given by the user throw (and the function, iterators or items of the source), not the copying of items. -/

namespace Verif.Pipe.Throw
open Verif Verif.Pipe

variable {α : Type}

/-- The pipeline; whether the source has thrown; which coroutines of which stages have thrown (`dead i w`: worker `w` of stage `i`,
`w = 0` if the stage has one coroutine); whether the program was terminated. (co_pipeline.h:187, 199, 260; co.cpp:41-62.) -/
structure State (α : Type) where
  s : Pipe.State α
  srcDead : Bool
  dead : Nat → Nat → Bool
  over : Bool

/-- At the start. (Concerns co_pipeline.h:187-291, co.cpp:31-62.) -/
def State.init (P : Pipe α) : State α := ⟨P.init, false, fun _ _ => false, false⟩

/-- Which coroutine of the stage is it? (Concerns co_pipeline.h:187-291, co.cpp:31-62.) -/
def who : Stage α → Nat → Nat
  | .fork _ _, w => w
  | _, _ => 0

/-- Does the stage, if it now gets an item, call a function of the user? `map` (co_pipeline.h:260), `fork` (281), `group` (316), `filter`
(354), `reduce` (391); `take` and `skip` have none. -/
def calls (w : Nat) : Stage α → Pc α → Bool
  | .map _, .get _ _ => true
  | .filter _, .get _ _ => true
  | .reduce _ _, .fold _ => true
  | .group n _, .get _ buf => decide (buf.length + 1 = n)
  | .fork _ _, .join ws => match ws[w]? with | some .get => true | _ => false
  | _, _ => false

/-- Choices of the environment: a step as in `Pipe`; the function of the source throws; stage `i` gets an item and its function throws; the
coroutine that joins the workers of `fork` stage `i` ends with an exception. (Concerns co_pipeline.h:187-291, co.cpp:31-62.) -/
inductive Act
  | ok (a : Pipe.Act)
  | throwSrc
  | throw (i w : Nat)
  | unwind (i : Nat)
deriving DecidableEq, Repr

/-- Events: those of the pipeline; something threw (`0`: the source, `i + 1`: stage `i`); the program was terminated. (Concerns co_pipeline.h:187-291, co.cpp:31-62.) -/
inductive Ev (α : Type)
  | ok (e : Pipe.Ev α)
  | threw (i : Nat)
  | terminate
deriving DecidableEq, Repr

/-- Has the coroutine that would act ended by an exception? (Concerns co_pipeline.h:187-291, co.cpp:31-62.) -/
def State.isDead (P : Pipe α) (s : State α) : Pipe.Act → Bool
  | .src => s.srcDead
  | .run i w => match P.stages[i]? with | some g => s.dead i (who g w) | none => false
  | .pop => false

/-- Has this worker ended, with or without an exception? (Concerns co_pipeline.h:187-291, co.cpp:31-62.) -/
def ended (d : Nat → Bool) (w : Nat) : W α → Bool
  | .done => true
  | _ => d w

/-- One step. (Concerns co_pipeline.h:187-291, co.cpp:31-62.) -/
def step (P : Pipe α) (s : State α) : Act → Option (State α × List (Ev α))
  | .ok a => if s.over || s.isDead P a then none else (P.step s.s a).map fun p => ({ s with s := p.1 }, p.2.map .ok)
  -- for example co_pipeline.h:187
  | .throwSrc => match s.s.spc with
    | .gen => if s.over || s.srcDead then none else some ({ s with srcDead := true }, [.threw 0])
    | _ => none
  | .throw i w => match P.stages[i]? with
    | none => none
    | some g =>
      if s.over || s.dead i (who g w) || !calls w g (s.s.pc i) || (s.s.ch i).data.isEmpty then none
      else (P.step s.s (.run i w)).map fun p =>
        ({ s with s := p.1, dead := upd s.dead i (upd (s.dead i) (who g w) true) }, [.threw (i + 1)])
  -- co_pipeline.h:288-291: some worker has thrown and all have ended
  | .unwind i => match P.stages[i]?, s.s.pc i with
    | some (.fork n _), .join ws =>
      if s.over || !(ws.zipIdx.all fun p => ended (s.dead i) p.2 p.1) then none
      else if 2 ≤ (List.range n).countP (s.dead i) then some ({ s with over := true }, [.terminate]) else none
    | _, _ => none

/-! ## What was delivered before is right -/

/-- Proof device: the step of the pipeline without exceptions that has the same effect. (Concerns co_pipeline.h:187-291, co.cpp:31-62.) -/
def Act.erase : Act → Option Pipe.Act
  | .ok a => some a
  | .throw i w => some (.run i w)
  | _ => none

/-- What the consumer and the channels see. (Concerns co_pipeline.h:187-291, co.cpp:31-62.) -/
def Ev.erase : Ev α → Option (Pipe.Ev α)
  | .ok e => some e
  | _ => none

theorem erase_ok (es : List (Pipe.Ev α)) : (es.map Ev.ok).filterMap Ev.erase = es := by
  induction es with
  | nil => rfl
  | cons e es ih => simp [Ev.erase, ih]

/-- The same operand of `|` with another function. (Concerns co_pipeline.h:187-291, co.cpp:31-62.) -/
def Alike : Stage α → Stage α → Prop
  | .map _, .map _ => True
  | .fork n _, .fork m _ => n = m
  | .filter _, .filter _ => True
  | .reduce _ a, .reduce _ b => a = b
  | .group n _, .group m _ => n = m
  | .take n, .take m => n = m
  | .skip n, .skip m => n = m
  | _, _ => False

/-- An exception can come from a stage that gets an item exactly where what the stage does with the item depends on the function it was
given. -/
theorem calls_iff {a b : α} (hab : a ≠ b) (w : Nat) (g : Stage α) (pc : Pc α) : calls w g pc = true ↔
    ∃ g' h h' v, Alike g g' ∧ g.cmd w pc = .pop h ∧ g'.cmd w pc = .pop h' ∧ h (some v) ≠ h' (some v) := by
  have other : ∀ x : α, ∃ y, x ≠ y := fun x => by
    by_cases h : x = a
    · exact ⟨b, h ▸ hab⟩
    · exact ⟨a, h⟩
  constructor
  · intro hc
    cases g <;> cases pc <;> simp only [calls, Bool.false_eq_true] at hc
    case map.get f k buf =>
      obtain ⟨y, hy⟩ := other (f a)
      exact ⟨.map fun _ => y, _, _, a, trivial, rfl, rfl, by simpa using hy⟩
    case filter.get f k buf =>
      refine ⟨.filter fun x => !f x, _, _, a, trivial, rfl, rfl, ?_⟩
      cases h : f a <;> simp [h]
    case reduce.fold f i x =>
      obtain ⟨y, hy⟩ := other (f x a)
      exact ⟨.reduce (fun _ _ => y) i, _, _, a, rfl, rfl, rfl, by simpa using hy⟩
    case group.get n f k buf =>
      have hn := of_decide_eq_true hc
      obtain ⟨y, hy⟩ := other (f (buf ++ [a]))
      exact ⟨.group n fun _ => y, _, _, a, rfl, rfl, rfl, by simpa [hn] using hy⟩
    case fork.join n f ws =>
      split at hc
      · rename_i hw
        obtain ⟨y, hy⟩ := other (f a)
        refine ⟨.fork n fun _ => y, fun | none => .join (ws.set w .done) | some v => .join (ws.set w (.put (f v))),
          fun | none => .join (ws.set w .done) | some v => .join (ws.set w (.put y)), a, rfl, ?_, ?_, ?_⟩
        · simp only [Stage.cmd, hw]; exact congrArg Cmd.pop (funext fun x => by cases x <;> rfl)
        · simp only [Stage.cmd, hw]; exact congrArg Cmd.pop (funext fun x => by cases x <;> rfl)
        · intro he
          simp only [Pc.join.injEq] at he
          have hl : w < ws.length := (List.getElem?_eq_some_iff.1 hw).1
          have := congrArg (fun l => l[w]?) he
          simp [hl] at this
          exact hy this
      · simp at hc
  · rintro ⟨g', h, h', v, ha, h1, h2, hne⟩
    cases g <;> cases g' <;> simp only [Alike] at ha <;> (try subst ha) <;> cases pc <;>
      simp only [Stage.cmd, Cmd.pop.injEq, reduceCtorEq] at h1 h2 <;> (try subst h1) <;> (try subst h2) <;> (try rfl) <;>
      (try exact absurd rfl hne)
    case group.group.get n f f' k buf =>
      simp only [calls, decide_eq_true_eq]
      by_cases hn : buf.length + 1 = n
      · exact hn
      · simp [hn] at hne
    case fork.fork.join n f f' ws =>
      simp only [calls]
      split at h1
      · rename_i hw; simp only [hw]
      all_goals try (simp at h1)
      split at h1 <;> simp at h1

/-- `group 2` may throw at every second item. -/
example : calls 0 (.group 2 List.sum) (.get 0 [5]) = true ∧ calls 0 (.group 2 (List.sum (α := Nat))) (.get 0 []) = false := by decide

/-- A call of a user function follows a `pop`; the stage goes on after it. -/
theorem calls_pop {P : Pipe α} {s s' : Pipe.State α} {i w : Nat} {g : Stage α} {es : List (Pipe.Ev α)} (hg : P.stages[i]? = some g)
    (hc : calls w g (s.pc i) = true) (hs : P.step s (.run i w) = some (s', es)) : es = [] := by
  simp only [Pipe.step, hg] at hs
  have : ∃ h, g.cmd w (s.pc i) = .pop h := by
    cases g <;> cases hp : s.pc i <;> simp only [hp, calls, Bool.false_eq_true] at hc <;> simp only [Stage.cmd, Cmd.pop.injEq, exists_eq']
    split at hc
    · rename_i h; simp [h]
    · simp at hc
  obtain ⟨h, hh⟩ := this
  simp only [hh] at hs
  split at hs <;> simp at hs
  exact hs.2

theorem erase_step {P : Pipe α} {s s' : State α} {a : Act} {es : List (Ev α)} (hs : step P s a = some (s', es)) :
    match a.erase with
    | some b => P.step s.s b = some (s'.s, es.filterMap Ev.erase)
    | none => s'.s = s.s ∧ es.filterMap Ev.erase = [] := by
  cases a with
  | ok a =>
    simp only [step] at hs
    split at hs
    · simp at hs
    · simp only [Option.map_eq_some_iff] at hs
      obtain ⟨p, hp, he⟩ := hs
      simp only [Prod.mk.injEq] at he
      obtain ⟨rfl, rfl⟩ := he
      simp only [Act.erase, hp, erase_ok]
  | throwSrc =>
    simp only [step] at hs
    repeat' split at hs
    all_goals simp only [Option.some.injEq, Prod.mk.injEq, reduceCtorEq] at hs
    obtain ⟨rfl, rfl⟩ := hs
    exact ⟨rfl, rfl⟩
  | throw i w =>
    simp only [step] at hs
    split at hs
    · simp at hs
    · rename_i g hg
      split at hs
      · simp at hs
      · rename_i hc
        simp only [Option.map_eq_some_iff] at hs
        obtain ⟨p, hp, he⟩ := hs
        simp only [Prod.mk.injEq] at he
        obtain ⟨rfl, rfl⟩ := he
        have := calls_pop hg (by simp only [Bool.or_eq_true, Bool.not_eq_true', not_or] at hc; simpa using hc.1.2) hp
        simp only [Act.erase, hp]
        exact congrArg some (Prod.ext rfl this)
  | unwind i =>
    simp only [step] at hs
    repeat' split at hs
    all_goals simp only [Option.some.injEq, Prod.mk.injEq, reduceCtorEq] at hs
    obtain ⟨rfl, rfl⟩ := hs
    exact ⟨rfl, rfl⟩

/-- Every execution with exceptions looks, but for the exceptions, like an execution without them in which some coroutines do
not get to run again. -/
theorem erase_runs {P : Pipe α} {as : List Act} {s s' : State α} {tr : List (Ev α)} (h : runs (step P) s as = some (s', tr)) :
    runs P.step s.s (as.filterMap Act.erase) = some (s'.s, tr.filterMap Ev.erase) := by
  induction as generalizing s tr with
  | nil => cases h; rfl
  | cons a as ih =>
    obtain ⟨s1, e1, e2, h1, h2, rfl⟩ := runs_cons h
    have := erase_step h1
    rw [List.filterMap_append]
    cases ha : a.erase with
    | none =>
      simp only [ha] at this
      rw [List.filterMap_cons_none ha, this.2, List.nil_append, ← this.1]
      exact ih h2
    | some b =>
      simp only [ha] at this
      rw [List.filterMap_cons_some ha]
      exact runs_append (as := [b]) (by simp [runs, this]) (ih h2)

/-- What the consumer got. (Concerns co_pipeline.h:187-291, co.cpp:31-62.) -/
def outs : List (Ev α) → List α
  | [] => []
  | .ok (.out v) :: es => v :: outs es
  | _ :: es => outs es

theorem outs_erase (tr : List (Ev α)) : Pipe.outs (tr.filterMap Ev.erase) = outs tr := by
  induction tr with
  | nil => rfl
  | cons e tr ih =>
    cases e with
    | ok e => rw [show (Ev.ok e :: tr).filterMap Ev.erase = e :: tr.filterMap Ev.erase from rfl]; cases e <;> simp [Pipe.outs, outs, ih]
    | threw i => rw [List.filterMap_cons_none rfl, ih]; rfl
    | terminate => rw [List.filterMap_cons_none rfl, ih]; rfl

/-- **C96 (partial).** Whatever throws, what the consumer gets is a beginning of what it should get, and it is told that this is all only
if it is. What is missing: `C96_never_ends`, `C96_terminates_program`. -/
theorem C96_prefix_partial {l : List α} {kd : Kind} {gs : List (Stage α)} (hok : ∀ g ∈ gs, g.Ok) {as : List Act} {s : State α}
    {tr : List (Ev α)} (h : runs (step (Pipe.ofList l kd gs)) (State.init (Pipe.ofList l kd gs)) as = some (s, tr)) :
    ∃ Y, Dens gs l Y ∧ outs tr <+: Y ∧ (Ev.ok .eof ∈ tr → outs tr = Y) := by
  have he := erase_runs h
  obtain ⟨Y, h1, h2, h3⟩ := C40_any_source (P := Pipe.ofList l kd gs) hok he (X := l) (fun j _ => rfl) (k_le he)
  rw [outs_erase] at h2 h3
  refine ⟨Y, h1, h2, fun hm => h3 ?_⟩
  exact List.mem_filterMap.2 ⟨_, hm, rfl⟩

/-! ## The pipeline does not end -/

/-- A stage that has not begun to end. (Concerns co_pipeline.h:187-291, co.cpp:31-62.) -/
def live : Stage α → Pc α → Bool
  | _, .get _ _ => true
  | _, .fold _ => true
  | .reduce _ _, .put _ _ => false
  | _, .put _ _ => true
  | _, .join ws => ws.any fun | .done => false | _ => true
  | _, _ => false

/-- Has the writer of channel `j` not begun to end? (Concerns co_pipeline.h:187-291, co.cpp:31-62.) -/
def writer (P : Pipe α) (s : Pipe.State α) : Nat → Prop
  | 0 => s.spc = .gen ∨ (∃ v, s.spc = .put v) ∨ s.spc = .wait
  | j + 1 => ∃ g, P.stages[j]? = some g ∧ live g (s.pc j) = true

/-- Proof device: from channel `i` on, a channel whose writer is at work is open and so is its reader. (Concerns co_pipeline.h:187-291, co.cpp:31-62.) -/
def Chain (P : Pipe α) (i : Nat) (s : Pipe.State α) : Prop :=
  ∀ j, i ≤ j → j ≤ P.stages.length → writer P s j → (s.ch j).st = .opened ∧ (j < P.stages.length → writer P s (j + 1))

/-- Is it `take`? (Concerns co_pipeline.h:187-291, co.cpp:31-62.) -/
def isTake : Stage α → Bool
  | .take _ => true
  | _ => false

theorem chain_init {P : Pipe α} (hok : ∀ g ∈ P.stages, g.Ok) {i : Nat} (ht : ∀ j g, i ≤ j → P.stages[j]? = some g → isTake g = false) :
    Chain P i P.init := by
  intro j hi hj hw
  refine ⟨rfl, fun hl => ?_⟩
  obtain ⟨g, hg⟩ : ∃ g, P.stages[j]? = some g := ⟨_, List.getElem?_eq_getElem hl⟩
  refine ⟨g, hg, ?_⟩
  have h1 := ht j g hi hg
  have h2 := hok g (List.mem_of_getElem? hg)
  simp only [Pipe.init, hg]
  cases g with
  | take n => simp [isTake] at h1
  | group n f => simp only [Stage.Ok] at h2; simp [Stage.start, Nat.pos_iff_ne_zero.1 h2, live]
  | fork n f =>
    simp only [Stage.Ok] at h2
    simp only [Stage.start, live, List.any_replicate]
    simp [Nat.pos_iff_ne_zero.1 h2]
  | _ => rfl

theorem writer_chain {P : Pipe α} {i : Nat} {s : Pipe.State α} (hc : Chain P i s) {j : Nat} (hi : i ≤ j) (hw : writer P s j) :
    ∀ k, j ≤ k → k ≤ P.stages.length → writer P s k := by
  intro k hjk
  induction k with
  | zero => intro _; have : j = 0 := by omega
            subst this; exact hw
  | succ k ih =>
    intro hk
    by_cases he : j = k + 1
    · subst he; exact hw
    · exact (hc k (by omega) (by omega) (ih (by omega) (by omega))).2 (by omega)

theorem live_pop {g : Stage α} {w : Nat} {pc : Pc α} {h : Option α → Pc α} (hc : g.cmd w pc = .pop h) :
    live g pc = true ∧ ∀ v, live g (h (some v)) = true := by
  cases g <;> cases pc <;> simp only [Stage.cmd, Cmd.pop.injEq, reduceCtorEq] at hc <;> try (subst hc)
  case map.get => exact ⟨rfl, fun _ => rfl⟩
  case filter.get => exact ⟨rfl, fun v => by simp only; split <;> rfl⟩
  case take.get => exact ⟨rfl, fun _ => rfl⟩
  case skip.get => exact ⟨rfl, fun v => by simp only; split <;> rfl⟩
  case reduce.fold => exact ⟨rfl, fun _ => rfl⟩
  case group.get => exact ⟨rfl, fun v => by simp only; split <;> rfl⟩
  case fork.join ws =>
    split at hc
    · rename_i hw
      simp only [Cmd.pop.injEq] at hc
      subst hc
      have hl : w < ws.length := (List.getElem?_eq_some_iff.1 hw).1
      refine ⟨?_, fun v => ?_⟩
      · simp only [live, List.any_eq_true]
        exact ⟨_, List.mem_of_getElem? hw, rfl⟩
      · simp only [live, List.any_eq_true]
        exact ⟨_, List.mem_set hl _, rfl⟩
    all_goals try (simp at hc)
    split at hc <;> simp at hc

theorem live_push {g : Stage α} (hg : isTake g = false) {w : Nat} {pc : Pc α} {v : α} {h : Bool → Pc α} (hc : g.cmd w pc = .push v h) :
    (live g pc = true → live g (h true) = true) ∧ (live g pc = false → ∀ b, live g (h b) = false) := by
  cases g <;> cases pc <;> simp only [Stage.cmd, Cmd.push.injEq, reduceCtorEq] at hc <;>
    try (obtain ⟨rfl, rfl⟩ := hc)
  case map.put => exact ⟨fun _ => rfl, fun h => by simp [live] at h⟩
  case filter.put => exact ⟨fun _ => rfl, fun h => by simp [live] at h⟩
  case take.put => simp [isTake] at hg
  case skip.put => exact ⟨fun _ => rfl, fun h => by simp [live] at h⟩
  case reduce.put => exact ⟨fun h => by simp [live] at h, fun _ _ => rfl⟩
  case group.put => exact ⟨fun _ => by simp only [if_true]; split <;> rfl, fun h => by simp [live] at h⟩
  case fork.join ws =>
    split at hc
    · simp at hc
    · rename_i hw
      simp only [Cmd.push.injEq] at hc
      obtain ⟨rfl, rfl⟩ := hc
      have hl : w < ws.length := (List.getElem?_eq_some_iff.1 hw).1
      refine ⟨fun _ => ?_, fun hd => ?_⟩
      · simp only [live, List.any_eq_true]
        exact ⟨_, List.mem_set hl _, rfl⟩
      · simp only [live, List.any_eq_false] at hd
        exact absurd rfl (hd _ (List.mem_of_getElem? hw))
    · simp at hc
    · split at hc <;> simp at hc
  case fork.put => exact ⟨fun _ => rfl, fun h => by simp [live] at h⟩

theorem live_end {g : Stage α} {w : Nat} {pc h : Pc α} (hc : g.cmd w pc = .close h ∨ g.cmd w pc = .cut h ∨ g.cmd w pc = .tau h) :
    live g pc = false ∧ live g h = false := by
  cases g <;> cases pc <;> simp only [Stage.cmd, Cmd.close.injEq, Cmd.cut.injEq, Cmd.tau.injEq, reduceCtorEq, false_or, or_false] at hc <;>
    try (subst hc; exact ⟨rfl, rfl⟩)
  case fork.join ws =>
    split at hc
    · simp at hc
    · simp at hc
    · simp at hc
    · split at hc
      · rename_i hall
        simp only [reduceCtorEq, false_or, Cmd.tau.injEq] at hc
        subst hc
        refine ⟨?_, rfl⟩
        simp only [live, List.any_eq_false]
        intro x hx
        have := List.all_eq_true.1 hall x hx
        cases x <;> simp_all
      · simp at hc

theorem live_push_take {g : Stage α} {w : Nat} {pc : Pc α} {v : α} {h : Bool → Pc α} (hc : g.cmd w pc = .push v h)
    (hl : live g pc = false) (b : Bool) : live g (h b) = false := by
  cases hg : isTake g with
  | false => exact (live_push hg hc).2 hl b
  | true =>
    cases g <;> simp [isTake] at hg
    cases pc <;> simp [Stage.cmd, live] at hc hl

/-- Proof device: what a step does to the writers and the channels. -/
theorem chain_step {P : Pipe α} {i : Nat} (ht : ∀ j g, i ≤ j → P.stages[j]? = some g → isTake g = false) {s s' : Pipe.State α} {a : Pipe.Act}
    {es : List (Pipe.Ev α)} (hc : Chain P i s) (hs : P.step s a = some (s', es)) : Chain P i s' := by
  have key : (∀ j, writer P s' j → writer P s j) ∧
      (∀ j, i ≤ j → j ≤ P.stages.length → writer P s j → (s.ch j).st = .opened → (j < P.stages.length → writer P s (j + 1)) →
        (s'.ch j).st = .opened) ∧
      (∀ j, i ≤ j → j < P.stages.length → writer P s j → (s.ch j).st = .opened → writer P s (j + 1) → (s.ch (j + 1)).st = .opened →
        writer P s' (j + 1)) := by
    cases a with
    | src =>
      have hst : ∀ j, writer P s' (j + 1) ↔ writer P s (j + 1) := by
        have : s'.pc = s.pc := by
          simp only [Pipe.step] at hs
          repeat' split at hs
          all_goals simp only [Option.some.injEq, Prod.mk.injEq, reduceCtorEq] at hs
          all_goals obtain ⟨rfl, rfl⟩ := hs
          all_goals rfl
        intro j; simp only [writer, this]
      have h0 : (writer P s' 0 → writer P s 0) ∧ (writer P s 0 → (s.ch 0).st = .opened → (s'.ch 0).st = .opened) ∧
          ∀ j, s'.ch (j + 1) = s.ch (j + 1) := by
        simp only [Pipe.step] at hs
        repeat' split at hs
        all_goals simp only [Option.some.injEq, Prod.mk.injEq, reduceCtorEq] at hs
        all_goals obtain ⟨rfl, rfl⟩ := hs
        all_goals simp_all [writer, upd_apply, Chan.push, Chan.close]
      refine ⟨fun j => ?_, fun j hi hj hw ho _ => ?_, fun j hi hj hw ho hw' _ => (hst j).2 hw'⟩
      · cases j with
        | zero => exact h0.1
        | succ j => exact (hst j).1
      · cases j with
        | zero => exact h0.2.1 hw ho
        | succ j => rw [h0.2.2]; exact ho
    | pop =>
      have h0 : s'.pc = s.pc ∧ s'.spc = s.spc ∧ ∀ j, (s'.ch j).st = (s.ch j).st := by
        simp only [Pipe.step] at hs
        repeat' split at hs
        all_goals simp only [Option.some.injEq, Prod.mk.injEq, reduceCtorEq] at hs
        all_goals obtain ⟨rfl, rfl⟩ := hs
        all_goals
          rename_i hp
          refine ⟨rfl, rfl, fun j => ?_⟩
          simp only [upd_apply]
          split
          · rename_i hj; subst hj; simp only [Chan.pop] at hp; grind
          · rfl
      have hst : ∀ j, writer P s' j ↔ writer P s j := by
        intro j; cases j <;> simp only [writer, h0.1, h0.2.1]
      exact ⟨fun j => (hst j).1, fun j _ _ _ ho _ => by rw [h0.2.2]; exact ho, fun j _ _ _ _ hw _ => (hst _).2 hw⟩
    | run k w =>
      simp only [Pipe.step] at hs
      split at hs
      · simp at hs
      · rename_i g hg
        -- the other writers
        have hoth : ∀ (n : Nat) (q : Pc α) (ch : Nat → Chan α) (b : Bool) (j : Nat), j ≠ k + 1 →
            (writer P ⟨n, s.spc, upd s.pc k q, ch, b⟩ j ↔ writer P s j) := by
          intro n q ch b j hj
          cases j with
          | zero => simp only [writer]
          | succ j => simp only [writer, upd_other _ _ (show j ≠ k by omega)]
        have hthis : ∀ (s' : Pipe.State α) (q : Pc α), s'.pc = upd s.pc k q → (writer P s' (k + 1) ↔ live g q = true) := by
          intro s' q h2
          simp only [writer, h2, upd_same, hg, Option.some.injEq, exists_eq_left']
        have hwas : writer P s (k + 1) ↔ live g (s.pc k) = true := by simp only [writer, hg, Option.some.injEq, exists_eq_left']
        split at hs
        · rename_i h hcmd
          have hlv := live_pop hcmd
          split at hs
          · simp at hs
          · rename_i o c hpop
            simp only [Option.some.injEq, Prod.mk.injEq] at hs
            obtain ⟨rfl, rfl⟩ := hs
            have hst : c.st = (s.ch k).st ∧ (o = none → (s.ch k).st ≠ .opened) := by
              simp only [Chan.pop] at hpop
              repeat' split at hpop
              all_goals simp only [Option.some.injEq, Prod.mk.injEq, reduceCtorEq] at hpop
              all_goals obtain ⟨rfl, rfl⟩ := hpop
              all_goals simp_all
            refine ⟨fun j hw => ?_, fun j _ _ _ ho _ => ?_, fun j hi hj hw ho hw' ho' => ?_⟩
            · by_cases hj : j = k + 1
              · subst hj; exact hwas.2 hlv.1
              · exact (hoth _ _ _ _ j hj).1 hw
            · simp only [upd_apply]
              split
              · rename_i hj; subst hj; rw [hst.1]; exact ho
              · exact ho
            · by_cases hj' : j = k
              · subst hj'
                rw [hthis _ _ rfl]
                cases o with
                | none => exact absurd ho (hst.2 rfl)
                | some v => exact hlv.2 v
              · exact (hoth _ _ _ _ _ (by omega)).2 hw'
        · rename_i v h hcmd
          split at hs
          · rename_i hcl
            simp only [Option.some.injEq, Prod.mk.injEq] at hs
            obtain ⟨rfl, rfl⟩ := hs
            refine ⟨fun j hw => ?_, fun j _ _ _ ho _ => ho, fun j hi hj hw ho hw' ho' => ?_⟩
            · by_cases hj : j = k + 1
              · subst hj
                rw [hthis _ _ rfl] at hw
                rw [hwas]
                cases hl : live g (s.pc k) with
                | true => rfl
                | false => rw [live_push_take hcmd hl] at hw; exact hw
              · exact (hoth _ _ _ _ j hj).1 hw
            · by_cases hj' : j = k
              · subst hj'; exact absurd ho' hcl
              · exact (hoth _ _ _ _ _ (by omega)).2 hw'
          · simp only [Option.some.injEq, Prod.mk.injEq] at hs
            obtain ⟨rfl, rfl⟩ := hs
            refine ⟨fun j hw => ?_, fun j _ _ _ ho _ => ?_, fun j hi hj hw ho hw' ho' => ?_⟩
            · by_cases hj : j = k + 1
              · subst hj
                rw [hthis _ _ rfl] at hw
                rw [hwas]
                cases hl : live g (s.pc k) with
                | true => rfl
                | false => rw [live_push_take hcmd hl] at hw; exact hw
              · exact (hoth _ _ _ _ j hj).1 hw
            · simp only [upd_apply]
              split
              · rename_i hj; subst hj; exact ho
              · exact ho
            · by_cases hj' : j = k
              · subst hj'
                rw [hthis _ _ rfl]
                exact (live_push (ht j g hi hg) hcmd).1 (hwas.1 hw')
              · exact (hoth _ _ _ _ _ (by omega)).2 hw'
        all_goals try (simp at hs; done)
        all_goals
          rename_i h hcmd
          simp only [Option.some.injEq, Prod.mk.injEq] at hs
          obtain ⟨rfl, rfl⟩ := hs
          have hle := live_end (g := g) (w := w) (pc := s.pc k) (h := h) (by simp [hcmd])
          have hdead : ¬ writer P s (k + 1) := by rw [hwas, hle.1]; simp
          refine ⟨fun j hw => ?_, fun j hi hj hw ho hn => ?_, fun j hi hj hw ho hw' ho' => ?_⟩
          · by_cases hj : j = k + 1
            · subst hj; rw [hthis _ _ rfl, hle.2] at hw; cases hw
            · exact (hoth _ _ _ _ j hj).1 hw
          · first
              | exact ho
              | (simp only [upd_apply]
                 split
                 · rename_i hj; subst hj
                   first
                     | exact absurd hw hdead
                     | exact absurd (hn (List.getElem?_eq_some_iff.1 hg).1) hdead
                 · exact ho)
          · by_cases hj' : j = k
            · subst hj'; exact absurd hw' hdead
            · exact (hoth _ _ _ _ _ (by omega)).2 hw'
  obtain ⟨ka, kb, kc⟩ := key
  intro j hi hj hw
  have hw' := ka j hw
  obtain ⟨h1, h2⟩ := hc j hi hj hw'
  refine ⟨kb j hi hj hw' h1 h2, fun hl => ?_⟩
  have h3 := h2 hl
  exact kc j hi hl hw' h1 h3 (hc (j + 1) (by omega) (by omega) h3).1

/-- Proof device: where a coroutine that has thrown is. (Concerns co_pipeline.h:187-291, co.cpp:31-62.) -/
def Stuck (P : Pipe α) (pc : Nat → Pc α) (j w : Nat) : Prop :=
  ∃ g, P.stages[j]? = some g ∧ (live g (pc j) = true ∧ (∀ n f, g ≠ .fork n f) ∧ w = 0 ∨
    ∃ n f ws v, g = .fork n f ∧ pc j = .join ws ∧ ws[w]? = some (.put v))

theorem Stuck.writer {P : Pipe α} {s : Pipe.State α} {j w : Nat} (h : Stuck P s.pc j w) : writer P s (j + 1) := by
  obtain ⟨g, hg, ⟨h, _⟩ | ⟨n, f, ws, v, rfl, hp, hw⟩⟩ := h
  · exact ⟨g, hg, h⟩
  · refine ⟨_, hg, ?_⟩
    rw [hp]
    simp only [live, List.any_eq_true]
    exact ⟨_, List.mem_of_getElem? hw, rfl⟩

/-- Proof device: a coroutine that has thrown counts as a writer for ever. (Concerns co_pipeline.h:187-291, co.cpp:31-62.) -/
structure TInv (P : Pipe α) (i : Nat) (s : State α) (tr : List (Ev α)) : Prop where
  chain : Chain P i s.s
  src : s.srcDead = true → s.s.spc = .gen
  dead : ∀ j w, s.dead j w = true → Stuck P s.s.pc j w
  threw : ∀ j, Ev.threw j ∈ tr → match j with | 0 => s.srcDead = true | j + 1 => ∃ w, s.dead j w = true
  eof : s.s.eof = true → (s.s.ch P.stages.length).st ≠ .opened
  seen : Ev.ok .eof ∈ tr → s.s.eof = true

theorem tinv_init {P : Pipe α} (hok : ∀ g ∈ P.stages, g.Ok) {i : Nat} (ht : ∀ j g, i ≤ j → P.stages[j]? = some g → isTake g = false) :
    TInv P i (State.init P) [] :=
  ⟨chain_init hok ht, by simp [State.init], by simp [State.init], by simp, by simp [State.init, Pipe.init], by simp⟩

/-- A step of the pipeline, seen from outside a stage. -/
theorem base_frame {P : Pipe α} {s s' : Pipe.State α} {a : Pipe.Act} {es : List (Pipe.Ev α)} (hs : P.step s a = some (s', es)) :
    (a ≠ .src → s'.spc = s.spc) ∧ (∀ j, (∀ w, a ≠ .run j w) → s'.pc j = s.pc j) ∧
    (∀ j, (s.ch j).st ≠ .opened → (s'.ch j).st ≠ .opened) ∧
    ((s.eof = true → (s.ch P.stages.length).st ≠ .opened) → s'.eof = true → (s'.ch P.stages.length).st ≠ .opened) ∧
    (s.eof = true → s'.eof = true) ∧ (Pipe.Ev.eof ∈ es → s'.eof = true) := by
  cases a with
  | src =>
    simp only [Pipe.step] at hs
    repeat' split at hs
    all_goals simp only [Option.some.injEq, Prod.mk.injEq, reduceCtorEq] at hs
    all_goals obtain ⟨rfl, rfl⟩ := hs
    all_goals refine ⟨by simp, fun _ _ => rfl, fun j hj => ?_, fun h he => ?_, id, by simp⟩
    all_goals try exact hj
    all_goals try exact h he
    all_goals simp only [upd_apply, Chan.push, Chan.close]
    all_goals grind
  | pop =>
    simp only [Pipe.step] at hs
    repeat' split at hs
    all_goals simp only [Option.some.injEq, Prod.mk.injEq, reduceCtorEq] at hs
    all_goals obtain ⟨rfl, rfl⟩ := hs
    all_goals
      rename_i hp
      simp only [Chan.pop] at hp
      refine ⟨fun _ => rfl, fun _ _ => rfl, fun j hj => ?_, fun h he => ?_, by grind, by simp⟩
      · simp only [upd_apply]; grind
      · simp only [upd_apply]; grind
  | run k w =>
    simp only [Pipe.step] at hs
    split at hs
    · simp at hs
    · split at hs
      all_goals try (split at hs)
      all_goals simp only [Option.some.injEq, Prod.mk.injEq, reduceCtorEq] at hs
      all_goals obtain ⟨rfl, rfl⟩ := hs
      all_goals refine ⟨fun _ => rfl, fun j hj => ?_, fun j hj => ?_, fun h he => ?_, id, by simp⟩
      all_goals try (exact upd_other _ _ (fun e => hj w (by rw [e])))
      all_goals try exact hj
      all_goals try exact h he
      all_goals simp only [upd_apply]
      all_goals (have := @pop_spec α (s.ch k); grind [Chan.push, Chan.close, Chan.pop])

/-- A worker that has thrown stays where it is while the others go on. -/
theorem stuck_other {P : Pipe α} {s s' : Pipe.State α} {k w w0 : Nat} {es : List (Pipe.Ev α)} {n : Nat} {f : α → α}
    (hg : P.stages[k]? = some (.fork n f)) (hd : Stuck P s.pc k w0) (hw : w ≠ w0) (hs : P.step s (.run k w) = some (s', es)) :
    Stuck P s'.pc k w0 := by
  obtain ⟨g, hg', ⟨_, h, _⟩ | ⟨n', f', ws, v, rfl, hp, hv⟩⟩ := hd
  · rw [hg] at hg'; simp only [Option.some.injEq] at hg'; exact absurd hg'.symm (h n f)
  · simp only [hg, Option.some.injEq, Stage.fork.injEq] at hg'
    obtain ⟨rfl, rfl⟩ := hg'
    simp only [Pipe.step, hg, hp] at hs
    have hset : ∀ x, (ws.set w x)[w0]? = some (.put v) := fun x => by rw [List.getElem?_set_ne hw, hv]
    cases hww : ws[w]? with
    | none =>
      have hcmd : (Stage.fork n f).cmd w (.join ws) = .stop := by
        simp only [Stage.cmd, hww]
        rw [if_neg]
        intro hall
        have := List.all_eq_true.1 hall _ (List.mem_of_getElem? hv)
        simp at this
      simp [hcmd] at hs
    | some x =>
      cases x with
      | done => simp [Stage.cmd, hww] at hs
      | get =>
        simp only [Stage.cmd, hww] at hs
        split at hs
        · simp at hs
        · simp only [Option.some.injEq, Prod.mk.injEq] at hs
          obtain ⟨rfl, rfl⟩ := hs
          refine ⟨_, hg, .inr ?_⟩
          simp only [upd_same]
          split <;> exact ⟨n, f, _, v, rfl, rfl, hset _⟩
      | put u =>
        simp only [Stage.cmd, hww] at hs
        split at hs <;> simp only [Option.some.injEq, Prod.mk.injEq] at hs <;> obtain ⟨rfl, rfl⟩ := hs <;>
          exact ⟨_, hg, .inr ⟨n, f, _, v, rfl, upd_same _ _ _, hset _⟩⟩

/-- The one that throws. -/
theorem stuck_throw {P : Pipe α} {s s' : Pipe.State α} {k w : Nat} {g : Stage α} {es : List (Pipe.Ev α)} (hg : P.stages[k]? = some g)
    (hc : calls w g (s.pc k) = true) (hne : (s.ch k).data.isEmpty = false) (hs : P.step s (.run k w) = some (s', es)) :
    Stuck P s'.pc k (who g w) := by
  simp only [Pipe.step, hg] at hs
  have hpop : ∃ v c, (s.ch k).pop = some (some v, c) := by
    simp only [Chan.pop]
    cases hd : (s.ch k).data with
    | nil => simp [hd] at hne
    | cons v d => exact ⟨_, _, rfl⟩
  obtain ⟨v, c, hpop⟩ := hpop
  by_cases hf : ∃ n f, g = .fork n f
  · obtain ⟨n, f, rfl⟩ := hf
    cases hp : s.pc k with
    | join ws =>
      simp only [hp, calls] at hc
      split at hc
      · rename_i hw
        simp only [hp, Stage.cmd, hw, hpop, Option.some.injEq, Prod.mk.injEq] at hs
        obtain ⟨rfl, rfl⟩ := hs
        have hl : w < ws.length := (List.getElem?_eq_some_iff.1 hw).1
        exact ⟨_, hg, .inr ⟨n, f, ws.set w (.put (f v)), f v, rfl, by simp only [upd_same], by simp [who, hl]⟩⟩
      · simp at hc
    | _ => simp [hp, calls] at hc
  · have hcmd : ∃ h, g.cmd w (s.pc k) = .pop h := by
      cases g <;> cases hp : s.pc k <;> simp only [hp, calls, Bool.false_eq_true] at hc <;>
        simp only [Stage.cmd, Cmd.pop.injEq, exists_eq']
      exact absurd ⟨_, _, rfl⟩ hf
    obtain ⟨h, hcmd⟩ := hcmd
    simp only [hcmd, hpop, Option.some.injEq, Prod.mk.injEq] at hs
    obtain ⟨rfl, rfl⟩ := hs
    refine ⟨g, hg, .inl ⟨?_, fun n f e => hf ⟨n, f, e⟩, ?_⟩⟩
    · simp only [upd_same]; exact (live_pop hcmd).2 v
    · cases g with
      | fork n f => exact absurd ⟨n, f, rfl⟩ hf
      | _ => rfl

theorem stuck_keep {P : Pipe α} {s s' : Pipe.State α} {a : Pipe.Act} {es : List (Pipe.Ev α)} {j w0 : Nat}
    (hd : Stuck P s.pc j w0) (hnd : ∀ w g, a = .run j w → P.stages[j]? = some g → who g w ≠ w0) (hs : P.step s a = some (s', es)) :
    Stuck P s'.pc j w0 := by
  by_cases ha : ∃ w, a = .run j w
  · obtain ⟨w, rfl⟩ := ha
    obtain ⟨g, hg, hh⟩ := hd
    have hn := hnd w g rfl hg
    by_cases hf : ∃ n f, g = .fork n f
    · obtain ⟨n, f, rfl⟩ := hf
      exact stuck_other hg ⟨_, hg, hh⟩ hn hs
    · exfalso
      rcases hh with ⟨_, _, rfl⟩ | ⟨n, f, _, _, rfl, _⟩
      · cases g with
        | fork n f => exact hf ⟨n, f, rfl⟩
        | _ => exact hn rfl
      · exact hf ⟨n, f, rfl⟩
  · have := (base_frame hs).2.1 j (fun w e => ha ⟨w, e⟩)
    unfold Stuck at *
    rw [this]; exact hd

theorem tinv_step {P : Pipe α} {i : Nat} (ht : ∀ j g, i ≤ j → P.stages[j]? = some g → isTake g = false) {s s' : State α} {a : Act}
    {tr es : List (Ev α)} (hI : TInv P i s tr) (hs : step P s a = some (s', es)) : TInv P i s' (tr ++ es) := by
  cases a with
  | ok a =>
    simp only [step] at hs
    split at hs
    · simp at hs
    · rename_i hnd
      simp only [Option.map_eq_some_iff] at hs
      obtain ⟨p, hp, he⟩ := hs
      simp only [Prod.mk.injEq] at he
      obtain ⟨rfl, rfl⟩ := he
      obtain ⟨f1, f2, f3, f4, f5, f6⟩ := base_frame (es := p.2) hp
      simp only [Bool.or_eq_true, not_or, Bool.not_eq_true] at hnd
      refine ⟨chain_step ht hI.chain hp, fun h => ?_, fun j w h => ?_, fun j hm => ?_, f4 hI.eof, fun hm => ?_⟩
      · rw [← hI.src h]
        refine f1 fun e => ?_
        subst e
        have := hnd.2; simp only [State.isDead] at this; rw [this] at h; cases h
      · refine stuck_keep (hI.dead j w h) (fun w' g e hg e' => ?_) hp
        subst e
        have := hnd.2; simp only [State.isDead, hg, e'] at this
        rw [this] at h; cases h
      · refine hI.threw j ?_
        rcases List.mem_append.1 hm with hm | hm
        · exact hm
        · simp at hm
      · rcases List.mem_append.1 hm with hm | hm
        · exact f5 (hI.seen hm)
        · simp only [List.mem_map, Ev.ok.injEq, exists_eq_right] at hm
          exact f6 hm
  | throwSrc =>
    simp only [step] at hs
    repeat' split at hs
    all_goals simp only [Option.some.injEq, Prod.mk.injEq, reduceCtorEq] at hs
    obtain ⟨rfl, rfl⟩ := hs
    rename_i hgen _
    refine ⟨hI.chain, fun _ => hgen, hI.dead, fun j hm => ?_, hI.eof, fun hm => hI.seen (by simpa using hm)⟩
    cases j with
    | zero => rfl
    | succ j => exact hI.threw (j + 1) (by simpa using hm)
  | throw k w =>
    simp only [step] at hs
    split at hs
    · simp at hs
    · rename_i g hg
      split at hs
      · simp at hs
      · rename_i hnd
        simp only [Option.map_eq_some_iff] at hs
        obtain ⟨p, hp, he⟩ := hs
        simp only [Prod.mk.injEq] at he
        obtain ⟨rfl, rfl⟩ := he
        obtain ⟨f1, f2, f3, f4, f5, f6⟩ := base_frame (es := p.2) hp
        simp only [Bool.or_eq_true, not_or, Bool.not_eq_true, Bool.not_eq_true', Bool.not_eq_false] at hnd
        refine ⟨chain_step ht hI.chain hp, fun h => ?_, fun j w' h => ?_, fun j hm => ?_, f4 hI.eof, fun hm => ?_⟩
        · rw [← hI.src h]; exact f1 (by simp)
        · by_cases hj : j = k ∧ w' = who g w
          · obtain ⟨rfl, rfl⟩ := hj
            exact stuck_throw hg hnd.1.2 hnd.2 hp
          · have hd : s.dead j w' = true := by
              simp only [upd_apply] at h
              by_cases hjk : j = k
              · subst hjk
                simp only [if_true, upd_apply] at h
                rw [if_neg (fun e => hj ⟨rfl, e⟩)] at h
                exact h
              · simpa [hjk] using h
            refine stuck_keep (hI.dead j w' hd) (fun w2 g2 e hg2 e' => ?_) hp
            simp only [Pipe.Act.run.injEq] at e
            obtain ⟨rfl, rfl⟩ := e
            rw [hg] at hg2
            simp only [Option.some.injEq] at hg2
            subst hg2
            exact hj ⟨rfl, e'.symm⟩
        · cases j with
          | zero => exact hI.threw 0 (by simpa using hm)
          | succ j =>
            rcases List.mem_append.1 hm with hm | hm
            · obtain ⟨w', h⟩ := hI.threw (j + 1) hm
              refine ⟨w', ?_⟩
              simp only [upd_apply]
              split
              · rename_i hj; subst hj; simp only [upd_apply]; split <;> simp_all
              · exact h
            · simp only [List.mem_singleton, Ev.threw.injEq, Nat.add_right_cancel_iff] at hm
              subst hm
              exact ⟨who g w, by simp [upd_same]⟩
        · exact f5 (hI.seen (by simpa using hm))
  | unwind k =>
    simp only [step] at hs
    repeat' split at hs
    all_goals simp only [Option.some.injEq, Prod.mk.injEq, reduceCtorEq] at hs
    obtain ⟨rfl, rfl⟩ := hs
    exact ⟨hI.chain, hI.src, hI.dead, fun j hm => hI.threw j (by simpa using hm), hI.eof, fun hm => hI.seen (by simpa using hm)⟩

/-- **C96 is false.** If the source or a stage throws and no `take` comes behind it, the consumer never learns of it: in no execution does its
loop over the results end. (`i = 0`: the source, `i + 1`: stage `i`.) -/
theorem C96_never_ends {P : Pipe α} (hok : ∀ g ∈ P.stages, g.Ok) {i : Nat} (ht : ∀ j g, i ≤ j → P.stages[j]? = some g → isTake g = false)
    {as : List Act} {s : State α} {tr : List (Ev α)} (h : runs (step P) (State.init P) as = some (s, tr)) (hm : Ev.threw i ∈ tr) :
    Ev.ok .eof ∉ tr := by
  have hI := runs_hist (step := step P) (TInv P i) (fun _ _ _ _ _ hI hs => tinv_step ht hI hs) as _ s tr [] (tinv_init hok ht) h
  simp only [List.nil_append] at hI
  intro he
  refine hI.eof (hI.seen he) ?_
  have hw : writer P s.s i := by
    have := hI.threw i hm
    cases i with
    | zero => exact .inl (hI.src this)
    | succ j => obtain ⟨w, hd⟩ := this; exact (hI.dead j w hd).writer
  have hle : i ≤ P.stages.length := by
    cases i with
    | zero => omega
    | succ j =>
      obtain ⟨g, hg, _⟩ := hw
      exact (List.getElem?_eq_some_iff.1 hg).1
  exact (hI.chain _ hle (Nat.le_refl _) (writer_chain hI.chain (Nat.le_refl _) hw _ hle (Nat.le_refl _))).1

/-- **C96, what happens instead.** With a finite source no execution goes on for ever: after a throw, if no `take` comes behind it, all comes to
rest and the consumer waits for ever. -/
theorem C96_comes_to_rest {l : List α} {kd : Kind} {gs : List (Stage α)} (hok : ∀ g ∈ gs, g.Ok) :
    ¬ ∃ f : Nat → State α, ∀ n, ∃ a e, step (Pipe.ofList l kd gs) (f n) a = some (f (n + 1), e) := by
  rintro ⟨f, hf⟩
  have hstep : ∀ (s s' : State α) a e, step (Pipe.ofList l kd gs) s a = some (s', e) →
      cost l gs s'.s + (if s'.srcDead then 0 else 1) + (if s'.over then 0 else 1) + 1 ≤
        cost l gs s.s + (if s.srcDead then 0 else 1) + (if s.over then 0 else 1) := by
    intro s s' a e hs
    have he := erase_step hs
    cases a with
    | ok a =>
      have := cost_step hok he
      simp only [step] at hs
      split at hs
      · simp at hs
      · simp only [Option.map_eq_some_iff, Prod.mk.injEq] at hs
        obtain ⟨p, hp, rfl, rfl⟩ := hs
        simp only at *; omega
    | throw i w =>
      have := cost_step hok he
      simp only [step] at hs
      repeat' split at hs
      · simp at hs
      · simp at hs
      · simp only [Option.map_eq_some_iff, Prod.mk.injEq] at hs
        obtain ⟨p, hp, rfl, rfl⟩ := hs
        simp only at *; omega
    | throwSrc =>
      simp only [step] at hs
      repeat' split at hs
      all_goals simp only [Option.some.injEq, Prod.mk.injEq, reduceCtorEq] at hs
      obtain ⟨rfl, rfl⟩ := hs
      rename_i hc
      simp only [Bool.or_eq_true, not_or, Bool.not_eq_true] at hc
      simp [hc.2]; omega
    | unwind i =>
      simp only [step] at hs
      repeat' split at hs
      all_goals simp only [Option.some.injEq, Prod.mk.injEq, reduceCtorEq] at hs
      obtain ⟨rfl, rfl⟩ := hs
      rename_i hc _
      simp only [Bool.or_eq_true, not_or, Bool.not_eq_true] at hc
      simp [hc.1]
  have h : ∀ n, cost l gs (f n).s + (if (f n).srcDead then 0 else 1) + (if (f n).over then 0 else 1) + n ≤
      cost l gs (f 0).s + (if (f 0).srcDead then 0 else 1) + (if (f 0).over then 0 else 1) := by
    intro n
    induction n with
    | zero => simp
    | succ n ih =>
      obtain ⟨a, e, hs⟩ := hf n
      have := hstep _ _ _ _ hs
      omega
  have := h (cost l gs (f 0).s + (if (f 0).srcDead then 0 else 1) + (if (f 0).over then 0 else 1) + 1)
  omega

/-- The events of a schedule. (Concerns co_pipeline.h:187-291, co.cpp:31-62.) -/
def events (P : Pipe α) (as : List Act) : Option (List (Ev α)) := (runs (step P) (State.init P) as).map (·.2)

/-- **C96, two exceptions.** Two workers of a `fork` throw: the program is terminated. -/
theorem C96_terminates_program : events (Pipe.ofList [1, 2] .unlimited [.fork 2 (· + 10)])
    [.ok .src, .ok .src, .ok .src, .ok .src, .ok .src, .throw 0 0, .throw 0 1, .unwind 0] =
    some [.ok (.acc 0 1), .ok (.acc 0 2), .threw 1, .threw 1, .terminate] := by decide

/-- `[1, 2, 3] | f | filter`, where `f` throws on the second item: the first result arrives, the source finishes, the consumer finds the channel empty and
open. -/
example : events (Pipe.ofList [1, 2, 3] .unlimited [.map (· + 1), .filter (· % 2 = 0)])
    [.ok .src, .ok .src, .ok (.run 0 0), .ok (.run 0 0), .ok (.run 1 0), .ok (.run 1 0), .ok .src, .ok .src, .throw 0 0, .ok .src,
      .ok .src, .ok .src, .ok .src, .ok .pop] =
    some [.ok (.acc 0 1), .ok (.acc 1 2), .ok (.acc 2 2), .ok (.acc 0 2), .threw 1, .ok (.acc 0 3), .ok (.cls 0), .ok (.out 2)] ∧
  events (Pipe.ofList [1, 2, 3] .unlimited [.map (· + 1), .filter (· % 2 = 0)])
    [.ok .src, .ok .src, .ok (.run 0 0), .ok (.run 0 0), .ok (.run 1 0), .ok (.run 1 0), .ok .src, .ok .src, .throw 0 0, .ok .src,
      .ok .src, .ok .src, .ok .src, .ok .pop, .ok .pop] = none := by decide

/-- With `take 1` behind it the consumer's loop ends although the function throws on the second item. -/
example : events (Pipe.ofList [1, 2] .unlimited [.map (· + 1), .take 1])
    [.ok .src, .ok .src, .ok .src, .ok .src, .ok (.run 0 0), .ok (.run 0 0), .throw 0 0, .ok (.run 1 0), .ok (.run 1 0), .ok (.run 1 0),
      .ok .pop, .ok .pop] =
    some [.ok (.acc 0 1), .ok (.acc 0 2), .ok (.acc 1 2), .threw 1, .ok (.acc 2 2), .ok (.cls 2), .ok (.out 2), .ok .eof] := by decide

end Verif.Pipe.Throw
