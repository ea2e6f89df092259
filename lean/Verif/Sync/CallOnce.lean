import Verif.Base.Lts

/-! # co_call_once

Models `include/cocpp/sync/co_call_once.h`. The preempt guard (co_call_once.h:20) only disables signals and is not modelled. The
compare-exchange (co_call_once.h:22) is one step; the callable is anything that runs for a while and then returns or throws. -/

namespace Verif.CallOnce

/-- Where a caller is: outside; before co_call_once.h:22; inside the callable (co_call_once.h:24); returning; an exception is leaving. (co_call_once.h:18-26.) -/
inductive Pc
  | idle
  | cas
  | running
  | done
  | exc
  deriving DecidableEq, Repr

/-- Observable events of call_once (no counterpart in the code). (Concerns co_call_once.h:14-26.) -/
inductive Ev
  | call (t : Tid)
  | start (t : Tid)
  | finish (t : Tid)
  | throws (t : Tid)
  | ret (t : Tid)
  | retExc (t : Tid)
  deriving DecidableEq, Repr

/-- `flag__` (co_call_once.h:14) and the callers. -/
structure St where
  flag : Bool
  pc : Tid → Pc

/-- A new `co_once_flag` (co_call_once.h:14): not called. -/
def St.init : St := ⟨false, fun _ => .idle⟩

/-- `endCall t ok`: the callable returns (`ok`) or throws. (Concerns co_call_once.h:14-26.) -/
inductive Act
  | call (t : Tid)
  | cas (t : Tid)
  | endCall (t : Tid) (ok : Bool)
  | leave (t : Tid)

/-- One step of `co_call_once` (co_call_once.h:18-26). -/
def step (s : St) : Act → Option (St × List Ev)
  | .call t => if s.pc t = .idle then some ({ s with pc := upd s.pc t .cas }, [.call t]) else none
  | .cas t =>
    if s.pc t = .cas then
      if s.flag then some ({ s with pc := upd s.pc t .done }, [])
      else some (⟨true, upd s.pc t .running⟩, [.start t])
    else none
  | .endCall t ok =>
    if s.pc t = .running then
      if ok then some ({ s with pc := upd s.pc t .done }, [.finish t])
      else some ({ s with pc := upd s.pc t .exc }, [.throws t])
    else none
  | .leave t =>
    if s.pc t = .done then some ({ s with pc := upd s.pc t .idle }, [.ret t])
    else if s.pc t = .exc then some ({ s with pc := upd s.pc t .idle }, [.retExc t])
    else none

/-- How often the callable was started in a trace. (Concerns co_call_once.h:14-26.) -/
def starts (es : List Ev) : Nat := es.countP fun e => match e with | .start _ => true | _ => false

end Verif.CallOnce
