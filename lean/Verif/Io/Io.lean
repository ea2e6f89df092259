import Verif.Base.Lts

/-! # Input and output (source/cocpp/io/co_io.cpp, co_net.cpp, co_client.cpp)

The kernel is an oracle: every system call of the modelled function is one action carrying its outcome. Between two calls of
the same function other coroutines run on the thread, so the value of `errno` before a call is part of the action as well. -/

namespace Verif.Io

/-- Linux numbers of the error codes the code looks at (errno.h). `EWOULDBLOCK` is `EAGAIN`. -/
def EINTR : Nat := 4
/-- See `EINTR`. (Concerns co_io.cpp:36-147, co_net.cpp:31-220, co_client.cpp:15-63.) -/
def EAGAIN : Nat := 11
/-- See `EINTR`. (Concerns co_io.cpp:36-147, co_net.cpp:31-220, co_client.cpp:15-63.) -/
def EINPROGRESS : Nat := 115

/-- Outcome of a system call that returns `ssize_t` or a descriptor: a non-negative result, or -1 with `errno` set. (Concerns co_io.cpp:36-147, co_net.cpp:31-220, co_client.cpp:15-63.) -/
inductive Out
  | ok (n : Nat)
  | err (e : Nat)
deriving DecidableEq, Repr

/-- Conversion of the 64-bit result to `int` (co_io.cpp:53, 75; co_net.cpp:108, 133, 153, 188, 207). -/
def toInt (n : Nat) : Int :=
  let r : Nat := n % 2 ^ 32
  if r < 2 ^ 31 then (r : Int) else (r : Int) - 2 ^ 32

/-- The variable `ret`. (Concerns co_io.cpp:36-147, co_net.cpp:31-220, co_client.cpp:15-63.) -/
def Out.ret : Out → Int
  | .ok n => toInt n
  | .err _ => -1

/-- `errno` after the call; a successful call leaves it alone. (Concerns co_io.cpp:36-147, co_net.cpp:31-220, co_client.cpp:15-63.) -/
def Out.errno (stale : Nat) : Out → Nat
  | .ok _ => stale
  | .err e => e

/-- The wrapped calls. (co_io.cpp:49-91, co_net.cpp:104-122, 129-167, 184-220.) -/
inductive Op
  /-- co_io.cpp:49-69 -/
  | read
  /-- co_io.cpp:71-91 -/
  | write
  /-- co_net.cpp:104-122 -/
  | send
  /-- co_net.cpp:129-147 -/
  | recv
  /-- co_net.cpp:149-167 -/
  | recvfrom
  /-- co_net.cpp:184-201 -/
  | sendmsg
  /-- co_net.cpp:203-220 -/
  | recvmsg
  /-- co_net.cpp:124-127 -/
  | sendto
deriving DecidableEq, Repr

/-- For which `errno` the wrapper yields and calls again (co_io.cpp:56, 78; co_net.cpp:112, 137, 157, 191, 210). -/
def Op.again : Op → Nat → Bool
  | .read, e => e = EAGAIN
  | .write, e => e = EAGAIN
  | .sendto, _ => false
  | _, e => e = EINTR ∨ e = EAGAIN

/-- The calling coroutine is in the loop, or the wrapper returned (with the current `errno`). (co_io.cpp:51-68.) -/
inductive Pc
  | loop
  | done (r : Int) (errno : Nat)
deriving DecidableEq, Repr

/-- The system call returns. (Concerns co_io.cpp:36-147, co_net.cpp:31-220, co_client.cpp:15-63.) -/
structure Act where
  out : Out
  /-- `errno` before the call -/
  stale : Nat
deriving Repr

/-- What can be observed: system calls, yields and the return (no counterpart in the code). (Concerns co_io.cpp:36-147, co_net.cpp:31-220, co_client.cpp:15-63.) -/
inductive Ev
  | sys (o : Out)
  | yield
  | ret (r : Int) (errno : Nat)
deriving DecidableEq, Repr

/-- One round of the loop. Simplification: logging (`CO_O_ERROR`) does not change `errno`. (co_io.cpp:51-68, 73-90; co_net.cpp:106-121, 131-146, 151-166, 186-200, 205-219.) -/
def step (op : Op) (p : Pc) (a : Act) : Option (Pc × List Ev) :=
  match p with
  | .done _ _ => none
  | .loop =>
    let r := a.out.ret
    let e := a.out.errno a.stale
    if r = -1 ∧ op.again e = true then some (.loop, [.sys a.out, .yield])
    else some (.done r e, [.sys a.out, .ret r e])

/-- Linux transfers at most `MAX_RW_COUNT` bytes per call (`INT_MAX & PAGE_MASK`, read(2)). (Concerns co_io.cpp:36-147, co_net.cpp:31-220, co_client.cpp:15-63.) -/
def maxRw : Nat := 0x7ffff000

/-! ## `co_client::write_n` (co_client.cpp:50-63) -/

namespace WriteN

/-- `send_size`, or the function returned. (co_client.cpp:50-63.) -/
inductive Pc
  | loop (sent : Nat)
  | done (ok : Bool)
deriving DecidableEq, Repr

/-- What can be observed: system calls, yields and the return (no counterpart in the code). (Concerns co_io.cpp:36-147, co_net.cpp:31-220, co_client.cpp:15-63.) -/
inductive Ev
  /-- `::write(fd, buf + off, cnt)` had outcome `o` -/
  | sys (off cnt : Nat) (o : Out)
  | yield
  | ret (ok : Bool)
deriving DecidableEq, Repr

/-- The loop condition `send_size < buf.size()` (co_client.cpp:53). -/
def enter (size sent : Nat) : Pc × List Ev := if sent < size then (.loop sent, []) else (.done true, [.ret true])

/-- One system call of `endpoint__.write` (co_client.cpp:55, co_io.cpp:71-91) and what follows it up to the next one.
`size` is `buf.size()`. `send_size += ret` is computed modulo 2^64 (co_client.cpp:60). -/
def step (size : Nat) (p : Pc) (a : Act) : Option (Pc × List Ev) :=
  match p with
  | .done _ => none
  | .loop sent =>
    let r := a.out.ret
    let e := a.out.errno a.stale
    let ev := Ev.sys sent (size - sent) a.out
    if r = -1 ∧ Op.again .write e = true then some (.loop sent, [ev, .yield])
    else if r < 0 then some (.done false, [ev, .ret false])
    else
      let q := enter size ((sent + r.toNat) % 2 ^ 64)
      some (q.1, ev :: q.2)

/-- The whole call: entry, then the kernel's outcomes. (Concerns co_io.cpp:36-147, co_net.cpp:31-220, co_client.cpp:15-63.) -/
def run (size : Nat) (as : List Act) : Option (Pc × List Ev) :=
  (runs (step size) (enter size 0).1 as).map fun q => (q.1, (enter size 0).2 ++ q.2)

end WriteN

/-! ## `co_client::read_n` (co_client.cpp:25-38) -/

namespace ReadN

/-- What `::read` did: delivered bytes (none at the end of the stream), or failed. (Concerns co_io.cpp:36-147, co_net.cpp:31-220, co_client.cpp:15-63.) -/
inductive Out
  | ok (bs : List UInt8)
  | err (e : Nat)
deriving Repr

/-- `ret`, as in `Io.Out.ret`. (Concerns co_io.cpp:36-147, co_net.cpp:31-220, co_client.cpp:15-63.) -/
def Out.ret : Out → Int
  | .ok bs => toInt bs.length
  | .err _ => -1

/-- `errno` after the call, as in `Io.Out.errno`. (Concerns co_io.cpp:36-147, co_net.cpp:31-220, co_client.cpp:15-63.) -/
def Out.errno (stale : Nat) : Out → Nat
  | .ok _ => stale
  | .err e => e

/-- The system call returns. (Concerns co_io.cpp:36-147, co_net.cpp:31-220, co_client.cpp:15-63.) -/
structure Act where
  out : Out
  stale : Nat

/-- `remain`, or the function returned. (co_client.cpp:25-38.) -/
inductive Pc
  | loop (remain : Nat)
  | done (ok : Bool)
deriving DecidableEq, Repr

/-- The caller's buffer and the progress of the loop. (co_client.cpp:25-38.) -/
structure State where
  buf : List UInt8
  pc : Pc

/-- What can be observed: system calls, yields and the return (no counterpart in the code). (Concerns co_io.cpp:36-147, co_net.cpp:31-220, co_client.cpp:15-63.) -/
inductive Ev
  /-- `::read(fd, buf + off, cnt)` had outcome `o` -/
  | sys (off cnt : Nat) (o : Out)
  | yield
  | ret (ok : Bool)

/-- The loop condition `remain > 0` (co_client.cpp:28). -/
def enter (remain : Nat) : Pc × List Ev := if 0 < remain then (.loop remain, []) else (.done true, [.ret true])

/-- The kernel stores the delivered bytes at offset `off`. (Concerns co_io.cpp:36-147, co_net.cpp:31-220, co_client.cpp:15-63.) -/
def store (buf : List UInt8) (off : Nat) (bs : List UInt8) : List UInt8 :=
  buf.take off ++ bs ++ buf.drop (off + bs.length)

/-- The kernel's effect on the buffer. (Concerns co_io.cpp:36-147, co_net.cpp:31-220, co_client.cpp:15-63.) -/
def Out.fill (o : Out) (buf : List UInt8) (off : Nat) : List UInt8 :=
  match o with
  | .ok bs => store buf off bs
  | .err _ => buf

/-- One system call of `endpoint__.read` (co_client.cpp:30, co_io.cpp:49-69) and what follows. `remain -= ret` is computed
modulo 2^64 (co_client.cpp:35). -/
def step (s : State) (a : Act) : Option (State × List Ev) :=
  match s.pc with
  | .done _ => none
  | .loop remain =>
    let r := a.out.ret
    let e := a.out.errno a.stale
    let off := s.buf.length - remain
    let ev := Ev.sys off remain a.out
    let buf := a.out.fill s.buf off
    if r = -1 ∧ Op.again .read e = true then some (⟨buf, .loop remain⟩, [ev, .yield])
    else if r < 0 then some (⟨buf, .done false⟩, [ev, .ret false])
    else
      let q := enter ((remain + 2 ^ 64 - r.toNat) % 2 ^ 64)
      some (⟨buf, q.1⟩, ev :: q.2)

/-- The whole call on a buffer. (Concerns co_io.cpp:36-147, co_net.cpp:31-220, co_client.cpp:15-63.) -/
def run (buf : List UInt8) (as : List Act) : Option (State × List Ev) :=
  (runs step ⟨buf, (enter buf.length).1⟩ as).map fun q => (q.1, (enter buf.length).2 ++ q.2)

end ReadN

/-! ## `co_net::connect` (co_net.cpp:58-102) -/

namespace Connect

/-- The kernel's view of the connection attempt. (Concerns co_io.cpp:36-147, co_net.cpp:31-220, co_client.cpp:15-63.) -/
inductive Conn
  | idle
  | pending
  | established
  | failed (e : Nat)
deriving DecidableEq, Repr

/-- Where the function is (co_net.cpp:60, 82, or returned). -/
inductive Pc
  | start
  | selecting
  | done (r : Int)
deriving DecidableEq, Repr

/-- The kernel's and the function's state. (co_net.cpp:58-102.) -/
structure State where
  conn : Conn
  pc : Pc
deriving DecidableEq, Repr

/-- Before the call. (Concerns co_io.cpp:36-147, co_net.cpp:31-220, co_client.cpp:15-63.) -/
def State.init : State := ⟨.idle, .start⟩

/-- The kernel's choices (connect(2), select(2)). (Concerns co_io.cpp:36-147, co_net.cpp:31-220, co_client.cpp:15-63.) -/
inductive Act
  /-- `::connect` returns 0: the connection is established; `errno` keeps its old value -/
  | connOk (stale : Nat)
  /-- `::connect` returns -1 with this `errno`; for `EINPROGRESS` the handshake continues -/
  | connErr (e : Nat)
  /-- the handshake ends, at any time: 0 or the error it will be reported with in `SO_ERROR` -/
  | handshake (e : Nat)
  /-- `select` returns -1 -/
  | selErr (e : Nat)
  /-- `select` returns 0 (time out) -/
  | selTimeout
  /-- `select` reports the socket writable; a conforming kernel does so only once the handshake ended -/
  | selReady
deriving DecidableEq, Repr

/-- What can be observed: system calls, yields and the return (no counterpart in the code). (Concerns co_io.cpp:36-147, co_net.cpp:31-220, co_client.cpp:15-63.) -/
inductive Ev
  | yield
  | ret (r : Int)
deriving DecidableEq, Repr

/-- co_net.cpp:60-71: after the call the code tests `ret > 0` (never true) and then `errno`, also when `ret` is 0. -/
def afterConnect (errno : Nat) : Pc × List Ev :=
  if errno ≠ EINPROGRESS then (.done (-1), [.ret (-1)]) else (.selecting, [])

/-- co_net.cpp:58-102, up to the next system call. Simplification: a `select` that reports something else than the only
descriptor it was given (co_net.cpp:96 false) is not modelled. -/
def step (s : State) : Act → Option (State × List Ev)
  | .connOk stale =>
    if s.pc = .start then some (⟨.established, (afterConnect stale).1⟩, (afterConnect stale).2) else none
  | .connErr e =>
    if s.pc = .start then
      some (⟨if e = EINPROGRESS then .pending else .failed e, (afterConnect e).1⟩, (afterConnect e).2)
    else none
  | .handshake e => if s.conn = .pending then some ({ s with conn := if e = 0 then .established else .failed e }, []) else none
  /- co_net.cpp:84-88 -/
  | .selErr _ => if s.pc = .selecting then some ({ s with pc := .done (-1) }, [.ret (-1)]) else none
  /- co_net.cpp:89-93 -/
  | .selTimeout => if s.pc = .selecting then some (s, [.yield]) else none
  /- co_net.cpp:96-99 -/
  | .selReady =>
    if s.pc = .selecting ∧ s.conn ≠ .pending then some ({ s with pc := .done 0 }, [.ret 0]) else none

end Connect

/-! ## `co_net::accept` (co_net.cpp:31-51) and `co_io::init_fd` (co_io.cpp:13-35) -/

namespace Accept

/-- Outcome of one round: `::accept`, and (if it succeeded) the two `fcntl` calls of `init_fd`. (Concerns co_io.cpp:36-147, co_net.cpp:31-220, co_client.cpp:15-63.) -/
structure Act where
  out : Out
  /-- `fcntl(F_GETFL)` succeeded -/
  getfl : Bool
  /-- the descriptor is already non-blocking -/
  nonblock : Bool
  /-- `fcntl(F_SETFL)` succeeded -/
  setfl : Bool
  stale : Nat

/-- `none`: `std::nullopt`; `some d`: a `co_net` whose `fd__` is `d`. (co_net.cpp:31-51.) -/
inductive Pc
  | loop
  | done (r : Option Int)
deriving DecidableEq, Repr

/-- co_io.cpp:13-35: the new value of `fd__` (initially -1, co_io.h:13). -/
def initFd (fd : Int) (a : Act) : Int :=
  if a.getfl = false then -1
  else if a.nonblock = false ∧ a.setfl = false then -1
  else fd

/-- co_net.cpp:33-50, one round of the loop. -/
def step (p : Pc) (a : Act) : Option (Pc × List Ev) :=
  match p with
  | .done _ => none
  | .loop =>
    let fd := a.out.ret
    let e := a.out.errno a.stale
    if fd = -1 then
      if e = EINTR ∨ e = EAGAIN then some (.loop, [.sys a.out, .yield])
      else some (.done none, [.sys a.out, .ret (-1) e])
    else some (.done (some (initFd fd a)), [.sys a.out, .ret (initFd fd a) e])

end Accept

end Verif.Io
