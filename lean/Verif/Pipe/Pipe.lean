import Verif.Base.Lts

/-! # Pipelines (C40-C42)

Models `include/cocpp/pipeline/co_pipeline.h`: a source, any number of stages one after the other, and a consumer of the last
channel. Every stage is a coroutine of its own (`fork` is several), every channel operation is one step: that `push`, `pop`,
`close` and the loop `for (… : ch)` behave atomically is what C33-C39 say about `co_chan`.

Simplified: all values are of one type (a pipeline whose item type changes is modelled over the sum of its types); the functions
given by the user are pure and return; `size_t` is `Nat`. -/

namespace Verif.Pipe
open Verif

variable {α : Type}

/-- The operands of `|` (include/cocpp/pipeline/co_pipeline_op.h:23-92; a function is `map`). `fork n f`, `group n f` as there. -/
inductive Stage (α : Type)
  | map (f : α → α)
  | filter (p : α → Bool)
  | take (n : Nat)
  | skip (n : Nat)
  | reduce (f : α → α → α) (z : α)
  | group (n : Nat) (f : List α → α)
  | fork (n : Nat) (f : α → α)

/-- A worker of `fork` (co_pipeline.h:274-288): before `pop`, before `push`, returned. -/
inductive W (α : Type)
  | get
  | put (v : α)
  | done
deriving DecidableEq, Repr

/-- Where the coroutine of a stage is. `get k buf`: before a `pop`; `k`: the index of the counting loops of `take` and `skip`,
`buf`: the part of `data` filled by `group`. `fold a`: before the `pop` of `reduce`, with `result = a`. `put k v`: before
`this_ch.push(v)`. `close`: before `this_ch.close()`. `cut`: before `ch.close()` on the input channel. `join`: in the `join` loop
of `fork`, with its workers. (co_pipeline.h:140-291, co_pipeline_op.h:23-92.) -/
inductive Pc (α : Type)
  | get (k : Nat) (buf : List α)
  | fold (a : α)
  | put (k : Nat) (v : α)
  | close
  | cut
  | join (ws : List (W α))
  | done
deriving DecidableEq, Repr

/-- The next operation of a coroutine and how it goes on. (Concerns co_chan.h:22-278, co_pipeline.h:140-291.) -/
inductive Cmd (α : Type)
  | pop (h : Option α → Pc α)
  | push (v : α) (h : Bool → Pc α)
  | close (h : Pc α)
  | cut (h : Pc α)
  | tau (h : Pc α)
  | stop

/-- Where a stage starts. `take 0` does not enter its loop (415), `group 0` does not enter the inner loop and pushes (306-316).
Simplified: the workers of `fork` (270-289) all exist at once; one that was not created yet is one that has not run yet. (Concerns co_chan.h:22-278, co_pipeline.h:140-291.) -/
def Stage.start : Stage α → Pc α
  | .map _ => .get 0 []
  | .filter _ => .get 0 []
  | .take n => if n = 0 then .close else .get 0 []
  | .skip _ => .get 0 []
  | .reduce _ z => .fold z
  | .group n f => if n = 0 then .put 0 (f []) else .get 0 []
  | .fork n _ => .join (List.replicate n .get)

/-- The code of the stages; `w`: which worker of a `fork` runs, if there is no such worker it is the coroutine that joins them.
- `map` (250-262, as the function of the source 180-199), `fork` (264-295), `group` (297-324), `filter` (346-366),
  `reduce` (382-397), `take` (411-435), `skip` (437-459). (Concerns co_chan.h:22-278, co_pipeline.h:140-291.) -/
def Stage.cmd (g : Stage α) (w : Nat) : Pc α → Cmd α
  | .get k buf => match g with
    | .map f => .pop fun
      | none => .close
      | some v => .put 0 (f v)
    | .filter p => .pop fun
      | none => .close
      | some v => if p v then .put 0 v else .get 0 []
    | .take _ => .pop fun
      | none => .close
      | some v => .put k v
    | .skip n => .pop fun
      | none => if k < n then .get n [] else .close
      | some v => if k < n then .get (k + 1) [] else .put k v
    | .group n f => .pop fun
      | none => .close
      | some v => if buf.length + 1 = n then .put 0 (f (buf ++ [v])) else .get 0 (buf ++ [v])
    | _ => .stop
  | .fold a => match g with
    | .reduce f _ => .pop fun
      | none => .put 0 a
      | some v => .fold (f a v)
    | _ => .stop
  | .put k v => match g with
    | .take n => .push v fun b => if b && decide (k + 1 < n) then .get (k + 1) [] else .close
    | .skip _ => .push v fun b => if b then .get k [] else .close
    | .reduce _ _ => .push v fun _ => .close
    | .group n f => .push v fun b => if b then (if n = 0 then .put 0 (f []) else .get 0 []) else .cut
    | _ => .push v fun b => if b then .get 0 [] else .close
  | .close => match g with
    | .take _ => .close .cut
    | _ => .close .done
  | .cut => .cut .done
  | .join ws => match g with
    | .fork _ f => match ws[w]? with
      | some .get => .pop fun
        | none => .join (ws.set w .done)
        | some v => .join (ws.set w (.put (f v)))
      | some (.put v) => .push v fun b => .join (ws.set w (if b then .get else .done))
      | some .done => .stop
      | none => if ws.all (fun | .done => true | _ => false) then .tau .close else .stop
    | _ => .stop
  | .done => .stop

/-- Has a channel been closed, and by whom first: by the stage that writes to it or by the one that reads from it? (The code
keeps only the flag `closed__`, include/cocpp/event/co_chan.h:22.) -/
inductive Cst
  | opened | fin | cut
deriving DecidableEq, Repr

/-- A channel: `data__`, `closed__`. `got`: history, the values popped so far. (Concerns co_chan.h:22-278, co_pipeline.h:140-291.) -/
structure Chan (α : Type) where
  got : List α
  data : List α
  st : Cst
deriving DecidableEq, Repr

/-- Everything that was pushed. (Concerns co_chan.h:22-278, co_pipeline.h:140-291.) -/
def Chan.all (c : Chan α) : List α := c.got ++ c.data

/-- `pop` (co_chan.h:238-263): `none` if it would have to wait. -/
def Chan.pop (c : Chan α) : Option (Option α × Chan α) :=
  match c.data with
  | v :: d => some (some v, { c with got := c.got ++ [v], data := d })
  | [] => if c.st = .opened then none else some (none, c)

/-- `push` to an open channel with room (co_chan.h:186-198). -/
def Chan.push (c : Chan α) (v : α) : Chan α := { c with data := c.data ++ [v] }

/-- `close` (co_chan.h:271-278). -/
def Chan.close (c : Chan α) (who : Cst) : Chan α := { c with st := if c.st = .opened then who else c.st }

/-- The capacity of the source's channel (co_chan.h:98-113): `max_chan_size < 0`, `= 0`, `> 0`. All other channels are
unlimited. -/
inductive Kind
  | unlimited | sync | fixed (n : Nat)
deriving DecidableEq, Repr

/-- Is there room for one more value? (Concerns co_chan.h:22-278, co_pipeline.h:140-291.) -/
def Kind.room : Kind → Nat → Bool
  | .unlimited, _ => true
  | .sync, n => decide (n < 1)
  | .fixed m, n => decide (n < m)

/-- The coroutine of the source (124-138, 152-166, 178-199, 214-248): before asking for the next item; before `push`; in the
second wait of `push` on an unbuffered channel (co_chan.h:225-227); before `close`; returned. -/
inductive Spc (α : Type)
  | gen
  | put (v : α)
  | wait
  | close
  | done
deriving DecidableEq, Repr

/-- `k`: the number of items the source has asked for. Channel 0 is the source's, channel `i + 1` that of stage `i`, which reads
channel `i`. `eof`: the consumer got the answer that the last channel is closed and empty. (co_pipeline.h:140-291.) -/
structure State (α : Type) where
  k : Nat
  spc : Spc α
  pc : Nat → Pc α
  ch : Nat → Chan α
  eof : Bool

/-- Who runs: the source, worker `w` of stage `i` (only `fork` has workers), the consumer. (Concerns co_chan.h:22-278, co_pipeline.h:140-291.) -/
inductive Act
  | src
  | run (i w : Nat)
  | pop
deriving DecidableEq, Repr

/-- `acc i v`: `v` enters channel `i`. `cls i`: the writer closes channel `i`. `cut i`: the reader closes it. `out v`, `eof`: the
consumer gets `v`, gets the end. (Concerns co_chan.h:22-278, co_pipeline.h:140-291.) -/
inductive Ev (α : Type)
  | acc (i : Nat) (v : α)
  | cls (i : Nat)
  | cut (i : Nat)
  | out (v : α)
  | eof
deriving DecidableEq, Repr

/-- A pipeline: its source as the sequence of its items, up to the first `none`; the kind of the source's channel; its stages. (Concerns co_chan.h:22-278, co_pipeline.h:140-291.) -/
structure Pipe (α : Type) where
  src : Nat → Option α
  kind : Kind
  stages : List (Stage α)

/-- All coroutines have been created. (Concerns co_chan.h:22-278, co_pipeline.h:140-291.) -/
def Pipe.init (P : Pipe α) : State α :=
  ⟨0, .gen, fun i => match P.stages[i]? with | some g => g.start | none => .done, fun _ => ⟨[], [], .opened⟩, false⟩

/-- One step of a coroutine or of the consumer (`operator|(to)` 202-212, or the user's loop over `| chan()`). (co_pipeline.h:140-291, co_pipeline_op.h:23-92.) -/
def Pipe.step (P : Pipe α) (s : State α) : Act → Option (State α × List (Ev α))
  | .src => match s.spc with
    | .gen => match P.src s.k with
      | none => some ({ s with spc := .close }, [])
      | some v => some ({ s with spc := .put v, k := s.k + 1 }, [])
    | .put v =>
      if (s.ch 0).st ≠ .opened then some ({ s with spc := .close }, [])
      else if P.kind.room (s.ch 0).data.length then
        some ({ s with spc := if P.kind = .sync then .wait else .gen, ch := upd s.ch 0 ((s.ch 0).push v) }, [.acc 0 v])
      else none
    | .wait => if (s.ch 0).st ≠ .opened ∨ (s.ch 0).data.length = 0 then some ({ s with spc := .gen }, []) else none
    | .close => some ({ s with spc := .done, ch := upd s.ch 0 ((s.ch 0).close .fin) }, [.cls 0])
    | .done => none
  | .run i w => match P.stages[i]? with
    | none => none
    | some g => match g.cmd w (s.pc i) with
      | .pop h => match (s.ch i).pop with
        | none => none
        | some (o, c) => some ({ s with pc := upd s.pc i (h o), ch := upd s.ch i c }, [])
      | .push v h =>
        if (s.ch (i + 1)).st ≠ .opened then some ({ s with pc := upd s.pc i (h false) }, [])
        else some ({ s with pc := upd s.pc i (h true), ch := upd s.ch (i + 1) ((s.ch (i + 1)).push v) }, [.acc (i + 1) v])
      | .close h =>
        some ({ s with pc := upd s.pc i h, ch := upd s.ch (i + 1) ((s.ch (i + 1)).close .fin) }, [.cls (i + 1)])
      | .cut h => some ({ s with pc := upd s.pc i h, ch := upd s.ch i ((s.ch i).close .cut) }, [.cut i])
      | .tau h => some ({ s with pc := upd s.pc i h }, [])
      | .stop => none
  | .pop => if s.eof then none else match (s.ch P.stages.length).pop with
    | none => none
    | some (some v, c) => some ({ s with ch := upd s.ch P.stages.length c }, [.out v])
    | some (none, c) => some ({ s with ch := upd s.ch P.stages.length c, eof := true }, [.eof])

/-! ## What a pipeline should compute -/

/-- The list functions of the stages; `fork` leaves the order open. (Concerns co_chan.h:22-278, co_pipeline.h:140-291.) -/
def Stage.Den : Stage α → List α → List α → Prop
  | .map f, X, Y => Y = X.map f
  | .filter p, X, Y => Y = X.filter p
  | .take n, X, Y => Y = X.take n
  | .skip n, X, Y => Y = X.drop n
  | .reduce f z, X, Y => Y = [X.foldl f z]
  | .group n f, X, Y => Y = (List.range (X.length / n)).map fun i => f ((X.drop (i * n)).take n)
  | .fork _ f, X, Y => Y.Perm (X.map f)

/-- The stages one after the other. (Concerns co_chan.h:22-278, co_pipeline.h:140-291.) -/
def Dens : List (Stage α) → List α → List α → Prop
  | [], X, Y => Y = X
  | g :: gs, X, Y => ∃ Z, g.Den X Z ∧ Dens gs Z Y

/-- Groups of a positive size and a positive number of workers. (`group 0` pushes `func({})` for ever, `fork 0` closes its channel
at once.) (Concerns co_chan.h:22-278, co_pipeline.h:140-291.) -/
def Stage.Ok : Stage α → Prop
  | .group n _ => 0 < n
  | .fork n _ => 0 < n
  | _ => True

theorem dens_snoc (gs : List (Stage α)) (g : Stage α) (X Y : List α) :
    Dens (gs ++ [g]) X Y ↔ ∃ Z, Dens gs X Z ∧ g.Den Z Y := by
  induction gs generalizing X with
  | nil => simp [Dens]
  | cons h gs ih =>
    simp only [List.cons_append, Dens, ih]
    constructor
    · rintro ⟨Z, h1, Z', h2, h3⟩; exact ⟨Z', ⟨Z, h1, h2⟩, h3⟩
    · rintro ⟨Z', ⟨Z, h1, h2⟩, h3⟩; exact ⟨Z, h1, Z', h2, h3⟩

end Verif.Pipe
