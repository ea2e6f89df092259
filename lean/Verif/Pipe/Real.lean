import Mathlib.Data.Nat.Pairing
import Verif.Monitor.Sys
import Verif.Chan.ChanProps
import Verif.Pipe.PipeLive

/-!
# Pipelines over the real channels

`Verif/Pipe/Pipe.lean` takes every channel operation as one step. Here the coroutines of a pipeline run over the channels of
`Verif/Chan/Chan.lean` with every step of their mutexes and condition variables (`Verif/Monitor/Sys.lean`), and that machine is compared
with the other.
-/

namespace Verif.Real
open Monitor

variable {α : Type}

/-- The coroutines of a pipeline (include/cocpp/pipeline/co_pipeline.h): that of the source (130-139, 158-167, 184-198, 220-229, 237-246), of
stage `i` (184-198 with 253-261, 269-293, 302-322, 351-364, 387-395, 414-433, 440-457), worker `w` of a `fork` (273-286), and whoever reads
the last channel (203-212). -/
inductive Who
  | src
  | stage (i : Nat)
  | worker (i w : Nat)
  | consumer
deriving DecidableEq, Repr

/-- Their local states, see `Pipe.Spc`, `Pipe.Pc`, `Pipe.W`; the consumer: what it has inserted into its collection (207-210), and has its
loop ended? (Concerns co_pipeline.h:65-352.) -/
inductive Loc (α : Type)
  | src (k : Nat) (p : Pipe.Spc α)
  | stage (p : Pipe.Pc α)
  | worker (p : Pipe.W α)
  | consumer (out : List α) (eof : Bool)
deriving DecidableEq, Repr

/-- The channel of `max_chan_size` (include/cocpp/event/co_chan.h:98-113). -/
def kindOf : Pipe.Kind → Chan.Kind
  | .unlimited => .unlimited
  | .sync => .sync
  | .fixed n => .fixed n

/-- The kind of channel `j`: only the source's channel gets a size (co_pipeline.h:128, 156, 182, 218, 235), `channel__` (39) is unlimited
otherwise (co_chan.h:95; a function as stage uses the default -1 of co_pipeline.h:65). -/
def kindAt (P : Pipe.Pipe α) (j : Nat) : Chan.Kind := if j = 0 then kindOf P.kind else .unlimited

/-- Channel `j`. (Concerns co_pipeline.h:65-352.) -/
def chans (P : Pipe.Pipe α) (j : Nat) : Obj (Chan.Ch α) Chan.Cv (Chan.Op α) (Chan.Res α) (Chan.Lin α) := Chan.obj (kindAt P j)

/-- The value a `pop` or a step of a range-for loop brings. (The loop body entered without a value, `nullDeref`, does not happen:
`C97_no_null`.) (Concerns co_pipeline.h:65-352.) -/
def answer : Chan.Res α → Option α
  | .popped o => o
  | .item v => some v
  | _ => none

/-- Did `push` return true? (Concerns co_pipeline.h:65-352.) -/
def accepted : Chan.Res α → Bool
  | .pushed b => b
  | _ => false

/-- `filter` (co_pipeline.h:352), `reduce` (389) and the second loop of `skip` (449) are range-for loops, everything else calls `pop`
(255, 276, 308, 417, 443). -/
def reads (g : Pipe.Stage α) (p : Pipe.Pc α) : Chan.Op α :=
  match g, p with
  | .filter _, _ => .next
  | .reduce _ _, _ => .next
  | .skip n, .get k _ => if k < n then .pop else .next
  | _, _ => .pop

/-- Has the coroutine of a `fork` all its workers to wait for (co_pipeline.h:288-291)? -/
def joining : Pipe.Pc α → Bool
  | .join _ => true
  | _ => false

/-- The next step of a coroutine, except the one that joins the workers. `it`: does the consumer use a range-for loop (`to`, co_pipeline.h:203-212) or
call `pop` on the channel (`chan`, 341-344)? The code of the stages is `Pipe.Stage.cmd`. -/
def own (P : Pipe.Pipe α) (it : Bool) : Who → Loc α → Next (Loc α) (Chan.Op α) (Chan.Res α)
  | .src, .src k p => match p with
    | .gen => match P.src k with
      | none => .go (.src k .close)
      | some v => .go (.src (k + 1) (.put v))
    | .put v => .call 0 (.push v) fun r => .src k (if accepted r then .gen else .close)
    | .close => .call 0 .close fun _ => .src k .done
    | _ => .stop
  | .stage i, .stage p => match P.stages[i]? with
    | none => .stop
    | some g => if joining p then .stop else match g.cmd 0 p with
      | .pop h => .call i (reads g p) fun r => .stage (h (answer r))
      | .push v h => .call (i + 1) (.push v) fun r => .stage (h (accepted r))
      | .close h => .call (i + 1) .close fun _ => .stage h
      | .cut h => .call i .close fun _ => .stage h
      | .tau h => .go (.stage h)
      | .stop => .stop
  | .worker i w, .worker p => match P.stages[i]? with
    | some (.fork n f) => if w < n then match p with
      | .get => .call i .pop fun r => .worker (match answer r with | none => .done | some v => .put (f v))
      | .put v => .call (i + 1) (.push v) fun r => .worker (if accepted r then .get else .done)
      | .done => .stop
      else .stop
    | _ => .stop
  | .consumer, .consumer out eof => if eof then .stop else
    .call P.stages.length (if it then .next else .pop) fun r => match answer r with
      | some v => .consumer (out ++ [v]) false
      | none => .consumer out true
  | _, _ => .stop

/-- Has the worker returned? (Concerns co_pipeline.h:65-352.) -/
def ended : Loc α → Bool
  | .worker .done => true
  | _ => false

/-- Is the coroutine of stage `i` the one of a `fork` that waits for its workers, and have they all returned (co_pipeline.h:288-291)? (`join` of one after
the other: only when all have returned the loop is over.) -/
def joined (P : Pipe.Pipe α) (i : Nat) (ps : Who → Loc α) : Bool :=
  match P.stages[i]?, ps (.stage i) with
  | some (.fork n _), .stage (.join _) => (List.range n).all fun w => ended (ps (.worker i w))
  | _, _ => false

/-- The program. `tid` numbers the coroutines in any way. (Concerns co_pipeline.h:65-352.) -/
def prog (P : Pipe.Pipe α) (it : Bool) (tid : Who → Tid) (inj : ∀ a b, tid a = tid b → a = b) :
    Prog Who (Loc α) (Chan.Op α) (Chan.Res α) where
  next w ps := match w with
    | .stage i => if joined P i ps then .go (.stage .close) else own P it (.stage i) (ps (.stage i))
    | w => own P it w (ps w)
  tid := tid
  inj := inj

/-- Proof device: the local state of a joining coroutine does not contain the workers. (Concerns co_pipeline.h:65-352.) -/
def hide : Pipe.Pc α → Pipe.Pc α
  | .join _ => .join []
  | p => p

/-- Where the coroutines start; as in `Pipe.Pipe.init` all have been created (the workers: co_pipeline.h:270-287). -/
def start (P : Pipe.Pipe α) : Who → Loc α
  | .src => .src 0 .gen
  | .stage i => .stage (match P.stages[i]? with | some g => hide g.start | none => .done)
  | .worker i w => .worker (match P.stages[i]? with | some (.fork n _) => if w < n then .get else .done | _ => .done)
  | .consumer => .consumer [] false

/-- State of the pipeline over the real channels. (Concerns co_pipeline.h:65-352.) -/
abbrev Full (α : Type) := Sys Who (Loc α) (Chan.Res α) (Monitor.Full (Chan.Ch α) Chan.Cv (Chan.Op α) (Chan.Res α))

/-- State with atomic critical sections. (Concerns co_pipeline.h:65-352.) -/
abbrev Atomic (α : Type) := Sys Who (Loc α) (Chan.Res α) (Monitor.Abs (Chan.Ch α) Chan.Cv (Chan.Op α) (Chan.Res α))

/-- Proof device: the local states in a state of the machine of `Verif/Pipe/Pipe.lean`. (Concerns co_pipeline.h:65-352.) -/
def locs (P : Pipe.Pipe α) (s : Pipe.State α) : Who → Loc α
  | .src => .src s.k s.spc
  | .stage i => .stage (hide (s.pc i))
  | .worker i w => .worker (match s.pc i with | .join ws => ws.getD w .done | _ => .done)
  | .consumer => .consumer (s.ch P.stages.length).got s.eof

/-- Proof device: `w` goes to `l`, all others stay. (Concerns co_pipeline.h:65-352.) -/
def Moves (P : Pipe.Pipe α) (s : Pipe.State α) (w : Who) (l : Loc α) (s' : Pipe.State α) : Prop :=
  locs P s' w = l ∧ ∀ u, u ≠ w → locs P s' u = locs P s u

/-- Proof device: only a `fork` joins, and it has all its workers. (Concerns co_pipeline.h:65-352.) -/
def Frk (P : Pipe.Pipe α) (s : Pipe.State α) : Prop :=
  ∀ i ws, s.pc i = .join ws → ∃ n f, P.stages[i]? = some (.fork n f) ∧ ws.length = n

theorem frk_init (P : Pipe.Pipe α) : Frk P P.init := by
  intro i ws h
  simp only [Pipe.Pipe.init] at h
  cases hg : P.stages[i]? with
  | none => simp [hg] at h
  | some g =>
    rw [hg] at h
    cases g <;> simp only [Pipe.Stage.start] at h
    case fork n f => cases h; exact ⟨n, f, rfl, by simp⟩
    all_goals (try split at h) <;> cases h

/-- Where a command can lead. -/
theorem cmd_join {g : Pipe.Stage α} {w : Nat} {p : Pipe.Pc α} :
    (∀ h, g.cmd w p = .pop h → ∀ o ws, h o = .join ws → ∃ us n f, p = .join us ∧ g = .fork n f ∧ us.length = ws.length) ∧
    (∀ v h, g.cmd w p = .push v h → ∀ b ws, h b = .join ws → ∃ us n f, p = .join us ∧ g = .fork n f ∧ us.length = ws.length) ∧
    (∀ h, g.cmd w p = .close h → ∀ ws, h ≠ .join ws) ∧ (∀ h, g.cmd w p = .cut h → ∀ ws, h ≠ .join ws) ∧
    (∀ h, g.cmd w p = .tau h → ∀ ws, h ≠ .join ws) := by
  cases p with
  | join us =>
    cases g with
    | fork n f =>
      simp only [Pipe.Stage.cmd]
      split
      · refine ⟨?_, by simp, by simp, by simp, by simp⟩
        intro h hh o ws ho
        cases hh
        refine ⟨us, n, f, rfl, rfl, ?_⟩
        cases o <;> simp only [Pipe.Pc.join.injEq] at ho <;> rw [← ho] <;> simp
      · refine ⟨by simp, ?_, by simp, by simp, by simp⟩
        intro v h hh b ws ho
        cases hh
        simp only [Pipe.Pc.join.injEq] at ho
        exact ⟨us, n, f, rfl, rfl, by rw [← ho]; simp⟩
      · simp
      · split <;> simp
    | _ => simp [Pipe.Stage.cmd]
  | get k buf =>
    cases g <;> simp only [Pipe.Stage.cmd] <;> refine ⟨?_, by simp, by simp, by simp, by simp⟩ <;> intro h hh o ws ho <;>
      cases hh <;> cases o <;> simp only [reduceCtorEq] at ho <;> (try split at ho) <;> cases ho
  | fold a =>
    cases g <;> simp only [Pipe.Stage.cmd] <;> refine ⟨?_, by simp, by simp, by simp, by simp⟩ <;> intro h hh o ws ho <;>
      cases hh <;> cases o <;> cases ho
  | put k v =>
    cases g <;> simp only [Pipe.Stage.cmd] <;> refine ⟨by simp, ?_, by simp, by simp, by simp⟩ <;> intro v h hh b ws ho <;>
      cases hh <;> simp only [reduceCtorEq] at ho <;> repeat' split at ho
    all_goals cases ho
  | close => cases g <;> simp [Pipe.Stage.cmd]
  | cut => simp [Pipe.Stage.cmd]
  | done => simp [Pipe.Stage.cmd]

theorem frk_step {P : Pipe.Pipe α} {s s' : Pipe.State α} {a : Pipe.Act} {es : List (Pipe.Ev α)} (hF : Frk P s)
    (hs : P.step s a = some (s', es)) : Frk P s' := by
  have hpc : s'.pc = s.pc → Frk P s' := by intro h i ws hw; rw [h] at hw; exact hF i ws hw
  cases a with
  | src =>
    apply hpc
    simp only [Pipe.Pipe.step] at hs
    repeat' split at hs
    all_goals first | (cases hs; rfl) | cases hs
  | pop =>
    apply hpc
    simp only [Pipe.Pipe.step] at hs
    repeat' split at hs
    all_goals first | (cases hs; rfl) | cases hs
  | run i w =>
    simp only [Pipe.Pipe.step] at hs
    cases hg : P.stages[i]? with
    | none => simp [hg] at hs
    | some g =>
      simp only [hg] at hs
      obtain ⟨c1, c2, c3, c4, c5⟩ := @cmd_join α g w (s.pc i)
      have key : ∀ q, s'.pc = upd s.pc i q → (∀ ws, q = .join ws → ∃ us n f, s.pc i = .join us ∧ g = .fork n f ∧ us.length = ws.length) →
          Frk P s' := by
        intro q hq hqq k ws hk
        rw [hq] at hk
        by_cases hki : k = i
        · subst hki
          simp only [upd_same] at hk
          obtain ⟨us, n, f, h1, h2, h3⟩ := hqq ws hk
          obtain ⟨n', f', h4, h5⟩ := hF k us h1
          exact ⟨n', f', h4, by omega⟩
        · rw [upd_other _ _ hki] at hk; exact hF k ws hk
      cases hc : g.cmd w (s.pc i) with
      | stop => simp [hc] at hs
      | tau h => simp only [hc] at hs; cases hs; exact key h rfl fun ws hw => absurd hw (c5 h hc ws)
      | cut h => simp only [hc] at hs; cases hs; exact key h rfl fun ws hw => absurd hw (c4 h hc ws)
      | close h => simp only [hc] at hs; cases hs; exact key h rfl fun ws hw => absurd hw (c3 h hc ws)
      | push v h =>
        simp only [hc] at hs
        split at hs <;> cases hs
        · exact key _ rfl fun ws hw => c2 v h hc _ ws hw
        · exact key _ rfl fun ws hw => c2 v h hc _ ws hw
      | pop h =>
        simp only [hc] at hs
        split at hs <;> cases hs
        exact key _ rfl fun ws hw => c1 h hc _ ws hw

end Verif.Real
