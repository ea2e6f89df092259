import Verif.Io.IoProps

/-!
# C129: two clients that talk to each other

Two `co_client`s at the two ends of a stream connection (include/cocpp/io/co_client.h). Each executes a program of `write_n` and `read_n`
calls; the calls are those of `Verif.Io.WriteN` and `Verif.Io.ReadN` (co_client.cpp:25-38, 50-63), one system call at a time. In between is
the kernel: for each direction a queue of bytes with a capacity. A system call moves as many bytes as the kernel likes, at least one if it
can move any, and gives `EAGAIN` if it cannot. Errors other than `EAGAIN` are not part of the model: a client that gets one takes no
further steps, which schedules of this model have as well.
-/

namespace Verif.Talk

open Verif.Io

/-- What a client does next: `write_n(bs)`, or `read_n(buf)` (co_client.h:20, 22); `buf` is what the buffer holds before. -/
inductive Cmd
  | write (bs : List UInt8)
  | read (buf : List UInt8)
deriving DecidableEq, Repr

/-- The call a client is in, with `send_size` (co_client.cpp:52) or `remain` (co_client.cpp:27). -/
inductive Call
  | w (bs : List UInt8) (sent : Nat)
  | r (buf : List UInt8) (remain : Nat)
deriving DecidableEq, Repr

/-- One client: the rest of its program, and the call it is in. (Concerns co_client.cpp:25-63.) -/
structure Side where
  prog : List Cmd
  call : Option Call

/-- The connection: the two clients, and `sock i`, the bytes that the kernel has taken from client `i` and not yet delivered. (Concerns co_client.cpp:25-63.) -/
structure State where
  side : Bool → Side
  sock : Bool → List UInt8

/-- A new connection. (Concerns co_client.cpp:25-63.) -/
def State.init (P : Bool → List Cmd) : State := ⟨fun i => ⟨P i, none⟩, fun _ => []⟩

/-- Client `who` goes on: it begins its next call, or its system call returns. `pick`: how many bytes the kernel moves; `stale`: `errno`
before. (Concerns co_client.cpp:25-63.) -/
structure Act where
  who : Bool
  pick : Nat
  stale : Nat

/-- What is seen: a call has returned (with its result), or the client has yielded because of `EAGAIN`. (Concerns co_client.cpp:25-63.) -/
inductive Ev
  | wrote (i : Bool) (bs : List UInt8) (ok : Bool)
  | got (i : Bool) (buf : List UInt8) (ok : Bool)
  | again (i : Bool)
deriving DecidableEq, Repr

/-- Change one client. (Concerns co_client.cpp:25-63.) -/
def State.put (s : State) (i : Bool) (sd : Side) : State := { s with side := fun j => if j = i then sd else s.side j }

/-- Change one queue. (Concerns co_client.cpp:25-63.) -/
def State.queue (s : State) (i : Bool) (q : List UInt8) : State := { s with sock := fun j => if j = i then q else s.sock j }

/-- How many bytes the kernel moves if it can move `avail > 0`. (Concerns co_client.cpp:25-63.) -/
def moved (avail pick : Nat) : Nat := 1 + pick % avail

/-- After a step of `write_n` (co_client.cpp:53, 62). -/
def afterWrite (s : State) (i : Bool) (bs : List UInt8) : WriteN.Pc → State × List Ev
  | .loop k => (s.put i ⟨(s.side i).prog, some (.w bs k)⟩, [])
  | .done b => (s.put i ⟨(s.side i).prog, none⟩, [.wrote i bs b])

/-- After a step of `read_n` (co_client.cpp:28, 37). -/
def afterRead (s : State) (i : Bool) (buf : List UInt8) : ReadN.Pc → State × List Ev
  | .loop k => (s.put i ⟨(s.side i).prog, some (.r buf k)⟩, [])
  | .done b => (s.put i ⟨(s.side i).prog, none⟩, [.got i buf b])

/-- One step of client `a.who`; `cap i` is the capacity of the queue that `i` writes to. A client that is through with its program does
nothing. The code of the calls is `WriteN.step` (co_client.cpp:50-63 with co_io.cpp:71-91) and `ReadN.step` (co_client.cpp:25-38 with
co_io.cpp:49-69). -/
def step (cap : Bool → Nat) (s : State) (a : Act) : Option (State × List Ev) :=
  let i := a.who
  match (s.side i).call with
  | none =>
    match (s.side i).prog with
    | [] => some (s, [])
    | .write bs :: rest => some (afterWrite (s.put i ⟨rest, none⟩) i bs (WriteN.enter bs.length 0).1)
    | .read buf :: rest => some (afterRead (s.put i ⟨rest, none⟩) i buf (ReadN.enter buf.length).1)
  | some (.w bs sent) =>
    let avail := min (min (bs.length - sent) (cap i - (s.sock i).length)) maxRw
    if avail = 0 then
      (WriteN.step bs.length (.loop sent) ⟨.err EAGAIN, a.stale⟩).map fun q =>
        ((afterWrite s i bs q.1).1, .again i :: (afterWrite s i bs q.1).2)
    else
      let n := moved avail a.pick
      (WriteN.step bs.length (.loop sent) ⟨.ok n, a.stale⟩).map fun q =>
        afterWrite (s.queue i (s.sock i ++ (bs.drop sent).take n)) i bs q.1
  | some (.r buf remain) =>
    let q := s.sock (!i)
    let avail := min (min remain q.length) maxRw
    if avail = 0 then
      (ReadN.step ⟨buf, .loop remain⟩ ⟨.err EAGAIN, a.stale⟩).map fun r =>
        ((afterRead s i r.1.buf r.1.pc).1, .again i :: (afterRead s i r.1.buf r.1.pc).2)
    else
      let n := moved avail a.pick
      (ReadN.step ⟨buf, .loop remain⟩ ⟨.ok (q.take n), a.stale⟩).map fun r =>
        afterRead (s.queue (!i) (q.drop n)) i r.1.buf r.1.pc

/-! ## What the clients see -/

/-- The messages a program writes. (Concerns co_client.cpp:25-63.) -/
def writes : List Cmd → List (List UInt8)
  | [] => []
  | .write bs :: p => bs :: writes p
  | .read _ :: p => writes p

/-- The buffers that the successful `read_n` calls of client `i` have filled, in order. (Concerns co_client.cpp:25-63.) -/
def gots (i : Bool) : List Ev → List (List UInt8)
  | [] => []
  | .got j buf true :: es => if j = i then buf :: gots i es else gots i es
  | _ :: es => gots i es

/-- The client is through with its program. (Concerns co_client.cpp:25-63.) -/
def Side.finished (sd : Side) : Prop := sd.prog = [] ∧ sd.call = none

/-- The programs fit together: whenever one writes, the other reads as many bytes. (Concerns co_client.cpp:25-63.) -/
inductive Dual : List Cmd → List Cmd → Prop
  | nil : Dual [] []
  | write {bs buf : List UInt8} {p q : List Cmd} : buf.length = bs.length → Dual p q → Dual (.write bs :: p) (.read buf :: q)
  | read {bs buf : List UInt8} {p q : List Cmd} : buf.length = bs.length → Dual p q → Dual (.read buf :: p) (.write bs :: q)

/-- The size of a call's buffer. (Concerns co_client.cpp:25-63.) -/
def Cmd.size : Cmd → Nat
  | .write bs => bs.length
  | .read buf => buf.length

/-- No buffer is larger than memory can be. (Concerns co_client.cpp:25-63.) -/
def Fits (P : Bool → List Cmd) : Prop := ∀ i, ∀ c ∈ P i, c.size < 2 ^ 63

/-! ## The two calls -/

theorem toInt_le {n : Nat} (h : n ≤ maxRw) : toInt n = (n : Int) := by
  have h' : n < 2 ^ 31 := by simp only [maxRw] at h; omega
  unfold toInt
  have : n % 2 ^ 32 = n := Nat.mod_eq_of_lt (by omega)
  simp only [this, h', if_true]

theorem write_again (size sent st : Nat) : WriteN.step size (.loop sent) ⟨.err EAGAIN, st⟩ =
    some (.loop sent, [.sys sent (size - sent) (.err EAGAIN), .yield]) := rfl

theorem write_ok {size sent n : Nat} (st : Nat) (h1 : sent + n ≤ size) (h2 : size < 2 ^ 63) (h3 : n ≤ maxRw) :
    WriteN.step size (.loop sent) ⟨.ok n, st⟩ =
      some ((WriteN.enter size (sent + n)).1, .sys sent (size - sent) (.ok n) :: (WriteN.enter size (sent + n)).2) := by
  have hm : (sent + n) % 2 ^ 64 = sent + n := Nat.mod_eq_of_lt (by omega)
  simp only [WriteN.step, Out.ret, toInt_le h3]
  rw [if_neg (by omega), if_neg (by omega)]
  simp only [Int.toNat_natCast, hm]

theorem read_again (buf : List UInt8) (remain st : Nat) : ReadN.step ⟨buf, .loop remain⟩ ⟨.err EAGAIN, st⟩ =
    some (⟨buf, .loop remain⟩, [.sys (buf.length - remain) remain (.err EAGAIN), .yield]) := rfl

theorem read_ok {buf : List UInt8} {remain : Nat} {bs : List UInt8} (st : Nat) (h1 : bs.length ≤ remain) (h2 : remain < 2 ^ 63)
    (h3 : bs.length ≤ maxRw) : ReadN.step ⟨buf, .loop remain⟩ ⟨.ok bs, st⟩ =
      some (⟨ReadN.store buf (buf.length - remain) bs, (ReadN.enter (remain - bs.length)).1⟩,
        .sys (buf.length - remain) remain (.ok bs) :: (ReadN.enter (remain - bs.length)).2) := by
  have hm : (remain + 2 ^ 64 - bs.length) % 2 ^ 64 = remain - bs.length := by
    have : remain + 2 ^ 64 - bs.length = (remain - bs.length) + 2 ^ 64 := by omega
    rw [this, Nat.add_mod_right, Nat.mod_eq_of_lt (by omega)]
  simp only [ReadN.step, ReadN.Out.ret, toInt_le h3, ReadN.Out.fill]
  rw [if_neg (by omega), if_neg (by omega)]
  simp only [Int.toNat_natCast, hm]

theorem moved_bounds {avail : Nat} (h : avail ≠ 0) (pick : Nat) : 1 ≤ moved avail pick ∧ moved avail pick ≤ avail := by
  have := Nat.mod_lt pick (Nat.pos_of_ne_zero h)
  unfold moved; omega

/-! ## The steps, spelled out -/

/-- The ways a step can go. Not in the library: `step` with the code of the calls evaluated. (Concerns co_client.cpp:25-63.) -/
inductive Move (cap : Bool → Nat) (s : State) (i : Bool) : State → List Ev → Prop
  /-- through with the program -/
  | idle : (s.side i).finished → Move cap s i s []
  /-- `EAGAIN`, nothing changes -/
  | again {c : Call} : (s.side i).call = some c →
      (∀ bs k, c = .w bs k → cap i ≤ (s.sock i).length) → (∀ buf k, c = .r buf k → s.sock (!i) = []) → Move cap s i s [.again i]
  | beginW {bs rest} : (s.side i).call = none → (s.side i).prog = .write bs :: rest → 0 < bs.length →
      Move cap s i (s.put i ⟨rest, some (.w bs 0)⟩) []
  | emptyW {rest} : (s.side i).call = none → (s.side i).prog = .write [] :: rest → Move cap s i (s.put i ⟨rest, none⟩) [.wrote i [] true]
  | beginR {buf rest} : (s.side i).call = none → (s.side i).prog = .read buf :: rest → 0 < buf.length →
      Move cap s i (s.put i ⟨rest, some (.r buf buf.length)⟩) []
  | emptyR {rest} : (s.side i).call = none → (s.side i).prog = .read [] :: rest → Move cap s i (s.put i ⟨rest, none⟩) [.got i [] true]
  | moreW {bs k n} : (s.side i).call = some (.w bs k) → 0 < n → k + n < bs.length → (s.sock i).length + n ≤ cap i →
      Move cap s i ((s.queue i (s.sock i ++ (bs.drop k).take n)).put i ⟨(s.side i).prog, some (.w bs (k + n))⟩) []
  | lastW {bs k n} : (s.side i).call = some (.w bs k) → 0 < n → k + n = bs.length → (s.sock i).length + n ≤ cap i →
      Move cap s i ((s.queue i (s.sock i ++ bs.drop k)).put i ⟨(s.side i).prog, none⟩) [.wrote i bs true]
  | moreR {buf k n} : (s.side i).call = some (.r buf k) → 0 < n → n < k → n ≤ (s.sock (!i)).length →
      Move cap s i ((s.queue (!i) ((s.sock (!i)).drop n)).put i
        ⟨(s.side i).prog, some (.r (ReadN.store buf (buf.length - k) ((s.sock (!i)).take n)) (k - n))⟩) []
  | lastR {buf k} : (s.side i).call = some (.r buf k) → 0 < k → k ≤ (s.sock (!i)).length →
      Move cap s i ((s.queue (!i) ((s.sock (!i)).drop k)).put i ⟨(s.side i).prog, none⟩)
        [.got i (ReadN.store buf (buf.length - k) ((s.sock (!i)).take k)) true]

/-- Calls are inside their buffers, and programs have no buffers larger than memory. (Concerns co_client.cpp:25-63.) -/
structure Ok (s : State) : Prop where
  w : ∀ i bs k, (s.side i).call = some (.w bs k) → k < bs.length ∧ bs.length < 2 ^ 63
  r : ∀ i buf k, (s.side i).call = some (.r buf k) → 0 < k ∧ k ≤ buf.length ∧ buf.length < 2 ^ 63
  prog : ∀ i, ∀ c ∈ (s.side i).prog, c.size < 2 ^ 63

theorem maxRw_pos : 0 < maxRw := by decide

theorem put_put (s : State) (i : Bool) (x y : Side) : (s.put i x).put i y = s.put i y := by
  simp only [State.put, State.mk.injEq, and_true]
  funext j; split <;> rfl

theorem put_self (s : State) (i : Bool) : s.put i (s.side i) = s := by
  obtain ⟨f, g⟩ := s
  simp only [State.put, State.mk.injEq, and_true]
  funext j; split <;> simp_all

theorem put_same (s : State) (i : Bool) (x : Side) : (s.put i x).side i = x := by simp [State.put]

theorem step_move {cap : Bool → Nat} {s s' : State} {a : Act} {es : List Ev} (hok : Ok s) (h : step cap s a = some (s', es)) :
    Move cap s a.who s' es := by
  obtain ⟨i, pick, st⟩ := a
  show Move cap s i s' es
  simp only [step] at h
  split at h
  · rename_i hc
    split at h
    · rename_i hp
      cases h; exact .idle ⟨hp, hc⟩
    · rename_i bs rest hp
      simp only [Option.some.injEq] at h
      unfold WriteN.enter at h
      split at h
      · simp only [afterWrite, put_put, put_same, Prod.mk.injEq] at h
        obtain ⟨rfl, rfl⟩ := h
        exact .beginW hc hp (by assumption)
      · rename_i h0
        simp only [afterWrite, put_put, put_same, Prod.mk.injEq] at h
        obtain ⟨rfl, rfl⟩ := h
        have : bs = [] := List.length_eq_zero_iff.1 (by omega)
        subst this
        exact .emptyW hc hp
    · rename_i buf rest hp
      simp only [Option.some.injEq] at h
      unfold ReadN.enter at h
      split at h
      · simp only [afterRead, put_put, put_same, Prod.mk.injEq] at h
        obtain ⟨rfl, rfl⟩ := h
        exact .beginR hc hp (by assumption)
      · rename_i h0
        simp only [afterRead, put_put, put_same, Prod.mk.injEq] at h
        obtain ⟨rfl, rfl⟩ := h
        have : buf = [] := List.length_eq_zero_iff.1 (by omega)
        subst this
        exact .emptyR hc hp
  · rename_i bs sent hc
    obtain ⟨h1, h2⟩ := hok.w i bs sent hc
    split at h
    · rename_i h0
      rw [write_again] at h
      simp only [Option.map_some, Option.some.injEq, afterWrite, Prod.mk.injEq] at h
      obtain ⟨rfl, rfl⟩ := h
      have hself : s.put i ⟨(s.side i).prog, some (.w bs sent)⟩ = s := by
        rw [← hc]; exact put_self s i
      rw [hself]
      refine .again hc (fun bs' k' e => ?_) (fun buf k e => by cases e)
      have := maxRw_pos
      omega
    · rename_i h0
      obtain ⟨hn1, hn2⟩ := moved_bounds h0 pick
      generalize moved _ pick = n at *
      rw [write_ok st (by omega) h2 (by omega)] at h
      simp only [Option.map_some, Option.some.injEq] at h
      unfold WriteN.enter at h
      split at h
      · simp only [afterWrite, Prod.mk.injEq] at h
        obtain ⟨rfl, rfl⟩ := h
        exact .moreW hc hn1 (by assumption) (by omega)
      · simp only [afterWrite, Prod.mk.injEq] at h
        obtain ⟨rfl, rfl⟩ := h
        have htake : (bs.drop sent).take n = bs.drop sent := List.take_of_length_le (by simp; omega)
        rw [htake]
        exact .lastW hc hn1 (by omega) (by omega)
  · rename_i buf remain hc
    obtain ⟨h1, h2, h3⟩ := hok.r i buf remain hc
    split at h
    · rename_i h0
      rw [read_again] at h
      simp only [Option.map_some, Option.some.injEq, afterRead, Prod.mk.injEq] at h
      obtain ⟨rfl, rfl⟩ := h
      have hself : s.put i ⟨(s.side i).prog, some (.r buf remain)⟩ = s := by
        rw [← hc]; exact put_self s i
      rw [hself]
      refine .again hc (fun bs' k' e => by cases e) (fun buf k e => ?_)
      have := maxRw_pos
      exact List.length_eq_zero_iff.1 (by omega)
    · rename_i h0
      obtain ⟨hn1, hn2⟩ := moved_bounds h0 pick
      generalize moved _ pick = n at *
      have hlen : ((s.sock (!i)).take n).length = n := by simp; omega
      rw [read_ok st (by rw [hlen]; omega) (by omega) (by rw [hlen]; omega)] at h
      simp only [Option.map_some, Option.some.injEq, hlen] at h
      unfold ReadN.enter at h
      split at h
      · simp only [afterRead, Prod.mk.injEq] at h
        obtain ⟨rfl, rfl⟩ := h
        exact .moreR hc hn1 (by omega) (by omega)
      · simp only [afterRead, Prod.mk.injEq] at h
        obtain ⟨rfl, rfl⟩ := h
        have : n = remain := by omega
        subst this
        exact .lastR hc hn1 (by omega)

theorem store_length {buf bs : List UInt8} {off : Nat} (h : off + bs.length ≤ buf.length) : (ReadN.store buf off bs).length = buf.length := by
  simp [ReadN.store]; omega

theorem queue_same (s : State) (i : Bool) (q : List UInt8) : (s.queue i q).sock i = q := by simp [State.queue]

theorem ok_put {s : State} (h : Ok s) (i : Bool) (x : Side) (hw : ∀ bs k, x.call = some (.w bs k) → k < bs.length ∧ bs.length < 2 ^ 63)
    (hr : ∀ buf k, x.call = some (.r buf k) → 0 < k ∧ k ≤ buf.length ∧ buf.length < 2 ^ 63) (hp : ∀ c ∈ x.prog, c.size < 2 ^ 63) (f : Bool → List UInt8) :
    Ok (State.put ⟨s.side, f⟩ i x) := by
  refine ⟨fun j bs k hj => ?_, fun j buf k hj => ?_, fun j c hj => ?_⟩ <;> simp only [State.put] at hj <;> split at hj
  · exact hw _ _ hj
  · exact h.w _ _ _ hj
  · exact hr _ _ hj
  · exact h.r _ _ _ hj
  · exact hp _ hj
  · exact h.prog _ _ hj

theorem ok_move {cap : Bool → Nat} {s s' : State} {i : Bool} {es : List Ev} (h : Ok s) (hm : Move cap s i s' es) : Ok s' := by
  have hp := h.prog i
  cases hm with
  | idle => exact h
  | again => exact h
  | beginW h1 h2 h3 =>
    rw [h2] at hp
    refine ok_put h i _ (fun bs k e => ?_) (fun buf k e => by cases e) (fun c hc => hp c (List.mem_cons_of_mem _ hc)) s.sock
    cases e; exact ⟨h3, hp _ List.mem_cons_self⟩
  | emptyW h1 h2 =>
    rw [h2] at hp
    exact ok_put h i _ (fun bs k e => by cases e) (fun buf k e => by cases e) (fun c hc => hp c (List.mem_cons_of_mem _ hc)) s.sock
  | beginR h1 h2 h3 =>
    rw [h2] at hp
    refine ok_put h i _ (fun bs k e => by cases e) (fun buf k e => ?_) (fun c hc => hp c (List.mem_cons_of_mem _ hc)) s.sock
    cases e; exact ⟨h3, Nat.le_refl _, hp _ List.mem_cons_self⟩
  | emptyR h1 h2 =>
    rw [h2] at hp
    exact ok_put h i _ (fun bs k e => by cases e) (fun buf k e => by cases e) (fun c hc => hp c (List.mem_cons_of_mem _ hc)) s.sock
  | moreW h1 h2 h3 h4 =>
    refine ok_put h i _ (fun bs k e => ?_) (fun buf k e => by cases e) (by exact hp) _
    cases e; exact ⟨h3, (h.w _ _ _ h1).2⟩
  | lastW h1 h2 h3 h4 => exact ok_put h i _ (fun bs k e => by cases e) (fun buf k e => by cases e) (by exact hp) _
  | @moreR buf k n h1 h2 h3 h4 =>
    refine ok_put h i _ (fun bs k e => by cases e) (fun buf' k' e => ?_) (by exact hp) _
    obtain ⟨g1, g2, g3⟩ := h.r _ _ _ h1
    cases e
    rw [store_length (by simp; omega)]
    exact ⟨by omega, by omega, g3⟩
  | lastR h1 h2 h3 => exact ok_put h i _ (fun bs k e => by cases e) (fun buf k e => by cases e) (by exact hp) _

/-! ## Conservation of bytes -/

/-- What client `i` still has to hand to the kernel. (Concerns co_client.cpp:25-63.) -/
def Side.out (sd : Side) : List UInt8 :=
  (match sd.call with | some (.w bs k) => bs.drop k | _ => []) ++ (writes sd.prog).flatten

/-- What the current `read_n` has got so far. (Concerns co_client.cpp:25-63.) -/
def Side.part (sd : Side) : List UInt8 := match sd.call with | some (.r buf k) => buf.take (buf.length - k) | _ => []

theorem gots_append (i : Bool) (a b : List Ev) : gots i (a ++ b) = gots i a ++ gots i b := by
  induction a with
  | nil => rfl
  | cons e a ih =>
    cases e with
    | wrote j bs ok => simpa [gots] using ih
    | again j => simpa [gots] using ih
    | got j buf ok =>
      cases ok
      · simpa [gots] using ih
      · simp only [List.cons_append, gots]; split <;> simp [ih]

/-- The stream from `i` to the other: read, read in part, under way, to be written. (Concerns co_client.cpp:25-63.) -/
def Kept (P : Bool → List Cmd) (s : State) (tr : List Ev) (i : Bool) : Prop :=
  (gots (!i) tr).flatten ++ (s.side (!i)).part ++ s.sock i ++ (s.side i).out = (writes (P i)).flatten

theorem store_take {buf bs : List UInt8} {k n : Nat} (h1 : bs.length = n) (h2 : n ≤ k) (h3 : k ≤ buf.length) :
    (ReadN.store buf (buf.length - k) bs).take (buf.length - (k - n)) = buf.take (buf.length - k) ++ bs := by
  have : buf.length - (k - n) = (buf.take (buf.length - k) ++ bs).length := by simp; omega
  rw [this]
  unfold ReadN.store
  rw [List.take_left]

theorem kept_move {cap : Bool → Nat} {P : Bool → List Cmd} {s s' : State} {i : Bool} {es tr : List Ev} (hok : Ok s) (hm : Move cap s i s' es)
    (h : ∀ j, Kept P s tr j) (j : Bool) : Kept P s' (tr ++ es) j := by
  have hj := h j
  simp only [Kept, gots_append] at hj ⊢
  have hcase : j = i ∨ j = !i := by cases i <;> cases j <;> simp
  have hb1 : ((!i) = i) = False := by cases i <;> simp
  have hb2 : (i = !i) = False := by cases i <;> simp
  cases hm with
  | idle => simpa [gots] using hj
  | again => simpa [gots] using hj
  | beginW h1 h2 h3 =>
    rcases hcase with rfl | rfl
    · rw [← hj]; simp [State.put, gots, Side.out, Side.part, h1, h2, writes, hb1]
    · rw [← hj]; simp [State.put, gots, Side.out, Side.part, h1, h2, writes, hb1]
  | emptyW h1 h2 =>
    rcases hcase with rfl | rfl
    · rw [← hj]; simp [State.put, gots, Side.out, Side.part, h1, h2, writes, hb1]
    · rw [← hj]; simp [State.put, gots, Side.out, Side.part, h1, h2, writes, hb1]
  | beginR h1 h2 h3 =>
    rcases hcase with rfl | rfl
    · rw [← hj]; simp [State.put, gots, Side.out, Side.part, h1, h2, writes, hb1]
    · rw [← hj]; simp [State.put, gots, Side.out, Side.part, h1, h2, writes, hb1]
  | emptyR h1 h2 =>
    rcases hcase with rfl | rfl
    · rw [← hj]; simp [State.put, gots, Side.out, Side.part, h1, h2, writes, hb1, hb2]
    · rw [← hj]; simp [State.put, gots, Side.out, Side.part, h1, h2, writes, hb1]
  | @moreW bs k n h1 h2 h3 h4 =>
    have hd : bs.drop k = (bs.drop k).take n ++ bs.drop (k + n) := by
      rw [← List.drop_drop, List.take_append_drop]
    rcases hcase with rfl | rfl
    · rw [← hj]; simp only [State.put, State.queue, gots, Side.out, Side.part, h1, hb1, if_true, if_false]
      simp only [List.append_nil, List.append_assoc]
      rw [← List.append_assoc (List.take n _), ← hd]
    · rw [← hj]; simp [State.put, State.queue, gots, Side.out, Side.part, h1, hb1]
  | @lastW bs k n h1 h2 h3 h4 =>
    rcases hcase with rfl | rfl
    · rw [← hj]; simp [State.put, State.queue, gots, Side.out, Side.part, h1, hb1]
    · rw [← hj]; simp [State.put, State.queue, gots, Side.out, Side.part, h1, hb1]
  | @moreR buf k n h1 h2 h3 h4 =>
    obtain ⟨g1, g2, g3⟩ := hok.r _ _ _ h1
    have hl : ((s.sock (!i)).take n).length = n := by simp; omega
    rcases hcase with rfl | rfl
    · rw [← hj]; simp [State.put, State.queue, gots, Side.out, Side.part, h1, hb1, hb2]
    · rw [← hj]; simp only [State.put, State.queue, gots, Side.out, Side.part, h1, hb1, Bool.not_not, if_true, if_false]
      rw [store_length (by rw [hl]; omega), store_take hl (by omega) g2]
      simp only [List.append_assoc, List.append_nil, List.nil_append]
      rw [← List.append_assoc (List.take n _), List.take_append_drop]
  | @lastR buf k h1 h2 h3 =>
    obtain ⟨g1, g2, g3⟩ := hok.r _ _ _ h1
    have hl : ((s.sock (!i)).take k).length = k := by simp; omega
    rcases hcase with rfl | rfl
    · rw [← hj]; simp [State.put, State.queue, gots, Side.out, Side.part, h1, hb1, hb2]
    · rw [← hj]; simp only [State.put, State.queue, gots, Side.out, Side.part, h1, hb1, Bool.not_not, if_true, if_false]
      have := store_take (buf := buf) hl (Nat.le_refl k) g2
      rw [Nat.sub_self, Nat.sub_zero, List.take_of_length_le (by rw [store_length (by rw [hl]; omega)]; exact Nat.le_refl _)] at this
      rw [this]
      simp only [List.flatten_append, List.flatten_cons, List.flatten_nil, List.append_assoc, List.append_nil, List.nil_append]
      rw [← List.append_assoc (List.take k _), List.take_append_drop]

theorem invs {cap : Bool → Nat} {P : Bool → List Cmd} (hf : Fits P) (as : List Act) (s : State) (tr : List Ev)
    (h : runs (step cap) (State.init P) as = some (s, tr)) : Ok s ∧ ∀ j, Kept P s tr j := by
  have := runs_hist (step := step cap) (fun s tr => Ok s ∧ ∀ j, Kept P s tr j)
    (fun s a s' es tr hI hs => ⟨ok_move hI.1 (step_move hI.1 hs), kept_move hI.1 (step_move hI.1 hs) hI.2⟩) as _ s tr []
    ⟨⟨fun i bs k h => by simp [State.init] at h, fun i bs k h => by simp [State.init] at h, fun i c hc => hf i c hc⟩,
      fun j => by simp [Kept, State.init, gots, Side.part, Side.out]⟩ h
  simpa using this

/-- **C129 (nothing is lost, invented or reordered).** Whatever the two clients do, however the kernel cuts the stream into pieces, and
whenever they are looked at: what the successful `read_n` calls of one client have returned, put together, is a beginning of what the other
client's program writes. -/
theorem C129_stream {cap : Bool → Nat} {P : Bool → List Cmd} (hf : Fits P) (as : List Act) (s : State) (tr : List Ev)
    (h : runs (step cap) (State.init P) as = some (s, tr)) (i : Bool) : (gots (!i) tr).flatten <+: (writes (P i)).flatten := by
  have := (invs hf as s tr h).2 i
  rw [Kept, List.append_assoc, List.append_assoc] at this
  exact ⟨_, this⟩

/-! ## Programs that fit together -/

/-- The size of each remaining call. The call that is under way counts with its whole buffer. (Concerns co_client.cpp:25-63.) -/
def Side.shape (sd : Side) : List (Bool × Nat) :=
  (match sd.call with | some (.w bs _) => [(true, bs.length)] | some (.r buf _) => [(false, buf.length)] | none => []) ++
    sd.prog.map fun | .write bs => (true, bs.length) | .read buf => (false, buf.length)

/-- The shape of a program. (Concerns co_client.cpp:25-63.) -/
def shape (p : List Cmd) : List (Bool × Nat) := p.map fun | .write bs => (true, bs.length) | .read buf => (false, buf.length)

/-- The other side's shape. (Concerns co_client.cpp:25-63.) -/
def flip (l : List (Bool × Nat)) : List (Bool × Nat) := l.map fun x => (!x.1, x.2)

theorem Dual.flip {p q : List Cmd} (h : Dual p q) : shape q = flip (shape p) := by
  induction h with
  | nil => rfl
  | write h _ ih => simp only [shape, Talk.flip] at ih; simp [shape, Talk.flip, h, ih]
  | read h _ ih => simp only [shape, Talk.flip] at ih; simp [shape, Talk.flip, h, ih]

/-- How many bytes calls of one kind move. (Concerns co_client.cpp:25-63.) -/
def total (w : Bool) : List (Bool × Nat) → Nat
  | [] => 0
  | x :: l => (if x.1 = w then x.2 else 0) + total w l

theorem total_append (w : Bool) (a b : List (Bool × Nat)) : total w (a ++ b) = total w a + total w b := by
  induction a with
  | nil => simp [total]
  | cons x a ih => simp [total, ih]; omega

theorem total_flip (w : Bool) (l : List (Bool × Nat)) : total w (flip l) = total (!w) l := by
  induction l with
  | nil => rfl
  | cons x l ih =>
    obtain ⟨b, n⟩ := x
    simp only [flip] at ih
    simp only [flip, List.map_cons, total, ih]
    cases b <;> cases w <;> rfl

/-- How much of the call under way is done already: bytes written, bytes read. (Concerns co_client.cpp:25-63.) -/
def Side.done (sd : Side) (w : Bool) : Nat :=
  match sd.call with | some (.w _ k) => if w then k else 0 | some (.r buf k) => if w then 0 else buf.length - k | none => 0

/-- Invariant for programs that fit: the rest of each program is an end of it, and what one still has to write, with what is under way, is
what the other still has to read. (Concerns co_client.cpp:25-63.) -/
structure Fit (P : Bool → List Cmd) (s : State) : Prop where
  suf : ∀ i, (s.side i).shape <:+ shape (P i)
  bal : ∀ i, total true (s.side i).shape + (s.sock i).length + (s.side (!i)).done false = (s.side i).done true + total false (s.side (!i)).shape

theorem done_none (p : List Cmd) (w : Bool) : (Side.mk p none).done w = 0 := rfl
theorem done_w (p : List Cmd) (bs : List UInt8) (k : Nat) : (Side.mk p (some (.w bs k))).done true = k := rfl
theorem done_w' (p : List Cmd) (bs : List UInt8) (k : Nat) : (Side.mk p (some (.w bs k))).done false = 0 := rfl
theorem done_r (p : List Cmd) (buf : List UInt8) (k : Nat) : (Side.mk p (some (.r buf k))).done true = 0 := rfl
theorem done_r' (p : List Cmd) (buf : List UInt8) (k : Nat) : (Side.mk p (some (.r buf k))).done false = buf.length - k := rfl
theorem total_tt (n : Nat) (l : List (Bool × Nat)) : total true ((true, n) :: l) = n + total true l := rfl
theorem total_tf (n : Nat) (l : List (Bool × Nat)) : total false ((true, n) :: l) = 0 + total false l := rfl
theorem total_ft (n : Nat) (l : List (Bool × Nat)) : total true ((false, n) :: l) = 0 + total true l := rfl
theorem total_ff (n : Nat) (l : List (Bool × Nat)) : total false ((false, n) :: l) = n + total false l := rfl

theorem fit_move {cap : Bool → Nat} {P : Bool → List Cmd} {s s' : State} {i : Bool} {es : List Ev} (hok : Ok s) (hm : Move cap s i s' es)
    (h : Fit P s) : Fit P s' := by
  have hb1 : ((!i) = i) = False := by cases i <;> simp
  have hb2 : (i = !i) = False := by cases i <;> simp
  have hsi := h.suf i
  have key : ∀ (x : Side) (f : Bool → List UInt8), (x.shape <:+ (s.side i).shape) →
      (total true x.shape + (f i).length + (s.side (!i)).done false = x.done true + total false (s.side (!i)).shape) →
      (total true (s.side (!i)).shape + (f (!i)).length + x.done false = (s.side (!i)).done true + total false x.shape) →
      Fit P (State.put ⟨s.side, f⟩ i x) := by
    intro x f h1 h2 h3
    refine ⟨fun j => ?_, fun j => ?_⟩
    · simp only [State.put]; split
      · rename_i e; subst e; exact h1.trans hsi
      · exact h.suf j
    · have hcase : j = i ∨ j = !i := by cases i <;> cases j <;> simp
      rcases hcase with rfl | rfl
      · simpa [State.put, hb1] using h2
      · simpa [State.put, hb1] using h3
  have b1 := h.bal i
  have b2 := h.bal (!i)
  simp only [Bool.not_not] at b2
  cases hm with
  | idle => exact h
  | again => exact h
  | @beginW bs rest h1 h2 h3 =>
    have e : (s.side i).shape = (true, bs.length) :: shape rest := by simp [Side.shape, h1, h2, shape]
    have d1 : (s.side i).done true = 0 := by simp [Side.done, h1]
    have d2 : (s.side i).done false = 0 := by simp [Side.done, h1]
    have e3 : (Side.mk rest (some (.w bs 0))).shape = (s.side i).shape := by rw [e]; simp [Side.shape, shape]
    refine key _ s.sock (by rw [e3]; exact List.suffix_refl _) ?_ ?_ <;> rw [e3] <;> simp only [d1, d2, done_none, done_w, done_w', done_r, done_r', Nat.sub_self] at b1 b2 ⊢ <;> omega
  | @emptyW rest h1 h2 =>
    have e : (s.side i).shape = (true, 0) :: shape rest := by simp [Side.shape, h1, h2, shape]
    have d1 : (s.side i).done true = 0 := by simp [Side.done, h1]
    have d2 : (s.side i).done false = 0 := by simp [Side.done, h1]
    have e3 : (Side.mk rest none).shape = shape rest := by simp [Side.shape, shape]
    refine key _ s.sock (by rw [e, e3]; exact List.suffix_cons _ _) ?_ ?_ <;> rw [e3] <;> rw [e] at b1 b2 <;> simp only [d1, d2, done_none, total_tt, total_tf, total_ft, total_ff] at b1 b2 ⊢ <;> omega
  | @beginR buf rest h1 h2 h3 =>
    have e : (s.side i).shape = (false, buf.length) :: shape rest := by simp [Side.shape, h1, h2, shape]
    have d1 : (s.side i).done true = 0 := by simp [Side.done, h1]
    have d2 : (s.side i).done false = 0 := by simp [Side.done, h1]
    have e3 : (Side.mk rest (some (.r buf buf.length))).shape = (s.side i).shape := by rw [e]; simp [Side.shape, shape]
    refine key _ s.sock (by rw [e3]; exact List.suffix_refl _) ?_ ?_ <;> rw [e3] <;> simp only [d1, d2, done_none, done_w, done_w', done_r, done_r', Nat.sub_self] at b1 b2 ⊢ <;> omega
  | @emptyR rest h1 h2 =>
    have e : (s.side i).shape = (false, 0) :: shape rest := by simp [Side.shape, h1, h2, shape]
    have d1 : (s.side i).done true = 0 := by simp [Side.done, h1]
    have d2 : (s.side i).done false = 0 := by simp [Side.done, h1]
    have e3 : (Side.mk rest none).shape = shape rest := by simp [Side.shape, shape]
    refine key _ s.sock (by rw [e, e3]; exact List.suffix_cons _ _) ?_ ?_ <;> rw [e3] <;> rw [e] at b1 b2 <;> simp only [d1, d2, done_none, total_tt, total_tf, total_ft, total_ff] at b1 b2 ⊢ <;> omega
  | @moreW bs k n h1 h2 h3 h4 =>
    have e : (s.side i).shape = (true, bs.length) :: shape (s.side i).prog := by simp [Side.shape, h1, shape]
    have e3 : (Side.mk (s.side i).prog (some (.w bs (k + n)))).shape = (s.side i).shape := by rw [e]; simp [Side.shape, shape]
    have l1 : ((bs.drop k).take n).length = n := by simp; omega
    have d1 : (s.side i).done true = k := by simp [Side.done, h1]
    have d2 : (s.side i).done false = 0 := by simp [Side.done, h1]
    refine key _ _ (by rw [e3]; exact List.suffix_refl _) ?_ ?_ <;> rw [e3] <;>
      simp only [State.queue, if_true, hb1, if_false, List.length_append, l1, d1, d2, done_w, done_w'] at b1 b2 ⊢ <;> omega
  | @lastW bs k n h1 h2 h3 h4 =>
    have e : (s.side i).shape = (true, bs.length) :: shape (s.side i).prog := by simp [Side.shape, h1, shape]
    have e3 : (Side.mk (s.side i).prog none).shape = shape (s.side i).prog := by simp [Side.shape, shape]
    have l1 : (bs.drop k).length = n := by simp; omega
    have d1 : (s.side i).done true = k := by simp [Side.done, h1]
    have d2 : (s.side i).done false = 0 := by simp [Side.done, h1]
    refine key _ _ (by rw [e3, e]; exact List.suffix_cons _ _) ?_ ?_ <;> rw [e3] <;> rw [e] at b1 b2 <;>
      simp only [State.queue, if_true, hb1, if_false, List.length_append, l1, d1, d2, done_none, total_tt, total_tf] at b1 b2 ⊢ <;> omega
  | @moreR buf k n h1 h2 h3 h4 =>
    obtain ⟨g1, g2, g3⟩ := hok.r _ _ _ h1
    have e : (s.side i).shape = (false, buf.length) :: shape (s.side i).prog := by simp [Side.shape, h1, shape]
    have l0 : (ReadN.store buf (buf.length - k) ((s.sock (!i)).take n)).length = buf.length := store_length (by simp; omega)
    have e3 : (Side.mk (s.side i).prog (some (.r (ReadN.store buf (buf.length - k) ((s.sock (!i)).take n)) (k - n)))).shape = (s.side i).shape := by
      rw [e]; simp [Side.shape, shape, l0]
    have d1 : (s.side i).done true = 0 := by simp [Side.done, h1]
    have d2 : (s.side i).done false = buf.length - k := by simp [Side.done, h1]
    refine key _ _ (by rw [e3]; exact List.suffix_refl _) ?_ ?_ <;> rw [e3] <;>
      simp only [State.queue, if_true, hb2, if_false, List.length_drop, l0, d1, d2, done_r, done_r'] at b1 b2 ⊢ <;> omega
  | @lastR buf k h1 h2 h3 =>
    obtain ⟨g1, g2, g3⟩ := hok.r _ _ _ h1
    have e : (s.side i).shape = (false, buf.length) :: shape (s.side i).prog := by simp [Side.shape, h1, shape]
    have e3 : (Side.mk (s.side i).prog none).shape = shape (s.side i).prog := by simp [Side.shape, shape]
    have d1 : (s.side i).done true = 0 := by simp [Side.done, h1]
    have d2 : (s.side i).done false = buf.length - k := by simp [Side.done, h1]
    refine key _ _ (by rw [e3, e]; exact List.suffix_cons _ _) ?_ ?_ <;> rw [e3] <;> rw [e] at b1 b2 <;>
      simp only [State.queue, if_true, hb2, if_false, List.length_drop, d1, d2, done_none, total_ft, total_ff] at b1 b2 ⊢ <;> omega

/-! ## Progress -/

/-- The bytes still to be moved and the calls still to be begun. (Concerns co_client.cpp:25-63.) -/
def Side.left (sd : Side) : Nat :=
  (match sd.call with | some (.w bs k) => bs.length - k | some (.r _ k) => k | none => 0) + (sd.prog.map fun c => c.size + 1).sum

/-- The same of both clients. (Concerns co_client.cpp:25-63.) -/
def State.left (s : State) : Nat := (s.side false).left + (s.side true).left

theorem State.left_eq (s : State) (i : Bool) : s.left = (s.side i).left + (s.side (!i)).left := by
  cases i <;> simp [State.left, Nat.add_comm]

/-- The client can do nothing at the moment: it is through, or its system call gives `EAGAIN`. (Concerns co_client.cpp:25-63.) -/
def Stuck (cap : Bool → Nat) (s : State) (i : Bool) : Prop :=
  (s.side i).finished ∨ ∃ c, (s.side i).call = some c ∧ (∀ bs k, c = .w bs k → cap i ≤ (s.sock i).length) ∧ (∀ buf k, c = .r buf k → s.sock (!i) = [])

/-- A step leaves everything as it is because the client is stuck, or there is less left to do. -/
theorem left_move {cap : Bool → Nat} {s s' : State} {i : Bool} {es : List Ev} (hok : Ok s) (hm : Move cap s i s' es) :
    (s' = s ∧ Stuck cap s i) ∨ s'.left < s.left := by
  have hb1 : ((!i) = i) = False := by cases i <;> simp
  have key : ∀ (x : Side) (f : Bool → List UInt8), x.left < (s.side i).left → (State.put ⟨s.side, f⟩ i x).left < s.left := by
    intro x f h
    rw [State.left_eq _ i, State.left_eq s i]
    simp only [State.put, if_true, hb1, if_false]
    omega
  cases hm with
  | idle h => exact .inl ⟨rfl, .inl h⟩
  | again h1 h2 h3 => exact .inl ⟨rfl, .inr ⟨_, h1, h2, h3⟩⟩
  | beginW h1 h2 h3 => exact .inr (key _ s.sock (by simp [Side.left, h1, h2, Cmd.size]))
  | emptyW h1 h2 => exact .inr (key _ s.sock (by simp [Side.left, h1, h2, Cmd.size]))
  | beginR h1 h2 h3 => exact .inr (key _ s.sock (by simp [Side.left, h1, h2, Cmd.size]))
  | emptyR h1 h2 => exact .inr (key _ s.sock (by simp [Side.left, h1, h2, Cmd.size]))
  | moreW h1 h2 h3 h4 => exact .inr (key _ _ (by simp only [Side.left, h1]; omega))
  | lastW h1 h2 h3 h4 => exact .inr (key _ _ (by simp only [Side.left, h1]; omega))
  | moreR h1 h2 h3 h4 => exact .inr (key _ _ (by simp only [Side.left, h1]; omega))
  | lastR h1 h2 h3 => exact .inr (key _ _ (by simp only [Side.left, h1]; omega))

/-- Two clients whose programs fit together are not both stuck, unless they are through. -/
theorem not_both_stuck {cap : Bool → Nat} (hcap : ∀ i, 0 < cap i) {P : Bool → List Cmd} {s : State} (hd : shape (P true) = flip (shape (P false)))
    (hok : Ok s) (hfit : Fit P s) (h0 : Stuck cap s false) (h1 : Stuck cap s true) : ∀ i, (s.side i).finished := by
  have hdi : ∀ i, shape (P (!i)) = flip (shape (P i)) := by
    intro i; cases i
    · exact hd
    · rw [show (!true) = false from rfl, hd, flip, flip, List.map_map]
      have : ((fun x : Bool × Nat => (!x.1, x.2)) ∘ fun x => (!x.1, x.2)) = id := by funext x; simp
      rw [this, List.map_id]
  have hst : ∀ i, Stuck cap s i := by intro i; cases i <;> assumption
  -- a client that is behind the other is not stuck
  have behind : ∀ i, (s.side i).shape.length ≤ (s.side (!i)).shape.length := by
    intro i
    refine Nat.le_of_not_lt fun hlt => ?_
    -- the rest of the other's program fits an end of mine
    have hs1 : flip (s.side (!i)).shape <:+ shape (P i) := by
      have := hfit.suf (!i)
      obtain ⟨t, ht⟩ := this
      have h2 := hdi (!i)
      rw [Bool.not_not, ← ht] at h2
      rw [h2, flip, flip, List.map_append]
      exact List.suffix_append _ _
    obtain ⟨E, hE⟩ := List.suffix_of_suffix_length_le hs1 (hfit.suf i) (by simp [flip]; omega)
    have hlen : E ≠ [] := by
      rintro rfl
      have := congrArg List.length hE
      simp [flip] at this
      omega
    have htot : ∀ w, total w (s.side i).shape = total w E + total (!w) (s.side (!i)).shape := by
      intro w; rw [← hE, total_append, total_flip]
    have b1 := hfit.bal i
    have b2 := hfit.bal (!i)
    rw [Bool.not_not] at b2
    have t1 := htot true
    have t2 := htot false
    simp only [Bool.not_true, Bool.not_false] at t1 t2
    obtain ⟨x, E', rfl⟩ := List.exists_cons_of_ne_nil hlen
    rcases hst i with hf | ⟨c, hc, hw, hr⟩
    · simp [Side.shape, hf.1, hf.2] at hE
    · cases c with
      | w bs k =>
        have hx : x = (true, bs.length) := by
          simp only [Side.shape, hc, List.cons_append, List.nil_append, List.cons.injEq] at hE
          exact hE.1
        subst hx
        have hk := (hok.w i bs k hc).1
        have d1 : (s.side i).done true = k := by simp [Side.done, hc]
        rw [total_tt] at t1
        omega
      | r buf k =>
        have hx : x = (false, buf.length) := by
          simp only [Side.shape, hc, List.cons_append, List.nil_append, List.cons.injEq] at hE
          exact hE.1
        subst hx
        have hk := (hok.r i buf k hc)
        have d1 : (s.side i).done false = buf.length - k := by simp [Side.done, hc]
        have hz := hr buf k rfl
        have d2 : (s.side (!i)).done true ≤ total true (s.side (!i)).shape := by
          simp only [Side.done, Side.shape]
          cases hcc : (s.side (!i)).call with
          | none => simp
          | some c =>
            cases c with
            | w bs k => have := (hok.w _ _ _ hcc).1; simp [total]; omega
            | r bs k => simp
        rw [total_ff] at t2
        rw [hz] at b2
        simp only [List.length_nil] at b2
        omega
  have heq : (s.side false).shape.length = (s.side true).shape.length := by
    have a := behind false; have b := behind true
    simp only [Bool.not_false, Bool.not_true] at a b
    omega
  have hfl : (s.side true).shape = flip (s.side false).shape := by
    obtain ⟨t, ht⟩ := hfit.suf false
    obtain ⟨u, hu⟩ := hfit.suf true
    rw [hd, ← ht, flip, List.map_append] at hu
    exact (List.append_inj' hu (by simp [heq])).2
  -- at the same call, one writes and the other reads
  have meet : ∀ i bs k buf k', (s.side i).call = some (.w bs k) → (s.side (!i)).call = some (.r buf k') → False := by
    intro i bs k buf k' hw hr
    rcases hst i with hf | ⟨c, hc, hcw, _⟩
    · rw [hf.2] at hw; cases hw
    · rcases hst (!i) with hf | ⟨c', hc', _, hcr⟩
      · rw [hf.2] at hr; cases hr
      · rw [hw] at hc; rw [hr] at hc'
        cases hc; cases hc'
        have h1 := hcw _ _ rfl
        have h2 := hcr _ _ rfl
        rw [Bool.not_not] at h2
        rw [h2] at h1
        have := hcap i
        simp at h1
        omega
  rcases hst false with hf | ⟨c, hc, _, _⟩
  · rcases hst true with hg | ⟨c', hc', _, _⟩
    · intro i; cases i <;> assumption
    · exfalso
      cases c' <;> simp [Side.shape, hf.1, hf.2, hc', flip] at hfl
  · exfalso
    rcases hst true with hg | ⟨c', hc', _, _⟩
    · cases c <;> simp [Side.shape, hg.1, hg.2, hc, flip] at hfl
    · cases c <;> cases c' <;> simp [Side.shape, hc, hc', flip] at hfl
      · exact meet false _ _ _ _ hc hc'
      · exact meet true _ _ _ _ hc' hc

theorem write_some (size k : Nat) (a : Io.Act) : ∃ q, WriteN.step size (.loop k) a = some q := by
  simp only [WriteN.step]
  split
  · exact ⟨_, rfl⟩
  · split <;> exact ⟨_, rfl⟩

theorem read_some (buf : List UInt8) (k : Nat) (a : ReadN.Act) : ∃ q, ReadN.step ⟨buf, .loop k⟩ a = some q := by
  simp only [ReadN.step]
  split
  · exact ⟨_, rfl⟩
  · split <;> exact ⟨_, rfl⟩

/-- Every client can go on at any time (possibly to get `EAGAIN` again). -/
theorem step_total (cap : Bool → Nat) (s : State) (a : Act) : ∃ q, step cap s a = some q := by
  obtain ⟨i, pick, st⟩ := a
  simp only [step]
  split
  · split <;> exact ⟨_, rfl⟩
  · split
    · obtain ⟨q, hq⟩ := write_some _ _ _
      rw [hq]; exact ⟨_, rfl⟩
    · obtain ⟨q, hq⟩ := write_some _ _ _
      rw [hq]; exact ⟨_, rfl⟩
  · split
    · obtain ⟨q, hq⟩ := read_some _ _ _
      rw [hq]; exact ⟨_, rfl⟩
    · obtain ⟨q, hq⟩ := read_some _ _ _
      rw [hq]; exact ⟨_, rfl⟩

theorem runs_total (cap : Bool → Nat) (as : List Act) : ∀ s : State, ∃ s' tr, runs (step cap) s as = some (s', tr) := by
  induction as with
  | nil => intro s; exact ⟨s, [], rfl⟩
  | cons a as ih =>
    intro s
    obtain ⟨⟨s1, e1⟩, h1⟩ := step_total cap s a
    obtain ⟨s2, e2, h2⟩ := ih s1
    exact ⟨s2, e1 ++ e2, by simp [runs, h1, h2]⟩

theorem left_runs {cap : Bool → Nat} (as : List Act) : ∀ (s s' : State) (tr : List Ev), Ok s → runs (step cap) s as = some (s', tr) →
    (s' = s ∧ ∀ a ∈ as, Stuck cap s a.who) ∨ s'.left < s.left := by
  induction as with
  | nil => intro s s' tr _ h; simp [runs] at h; exact .inl ⟨h.1.symm, by simp⟩
  | cons a as ih =>
    intro s s' tr hok h
    obtain ⟨s1, e1, e2, hs, hr, rfl⟩ := runs_cons h
    have hm := step_move hok hs
    rcases left_move hok hm with ⟨rfl, h1⟩ | h1
    · rcases ih _ _ _ hok hr with ⟨rfl, h2⟩ | h2
      · refine .inl ⟨rfl, fun b hb => ?_⟩
        rcases List.mem_cons.1 hb with rfl | hb
        · exact h1
        · exact h2 b hb
      · exact .inr h2
    · rcases ih _ _ _ (ok_move hok hm) hr with ⟨rfl, _⟩ | h2
      · exact .inr h1
      · exact .inr (by omega)

/-- In the round each client goes on at least once. (Concerns co_client.cpp:25-63.) -/
def Round (r : List Act) : Prop := ∀ i, ∃ a ∈ r, a.who = i

theorem fit_runs {cap : Bool → Nat} {P : Bool → List Cmd} (as : List Act) : ∀ (s s' : State) (tr : List Ev), Ok s → Fit P s →
    runs (step cap) s as = some (s', tr) → Ok s' ∧ Fit P s' := by
  induction as with
  | nil => intro s s' tr h1 h2 h; simp [runs] at h; obtain ⟨rfl, _⟩ := h; exact ⟨h1, h2⟩
  | cons a as ih =>
    intro s s' tr h1 h2 h
    obtain ⟨s1, e1, e2, hs, hr, rfl⟩ := runs_cons h
    have hm := step_move h1 hs
    exact ih _ _ _ (ok_move h1 hm) (fit_move h1 hm h2) hr

theorem finished_stays {cap : Bool → Nat} (as : List Act) : ∀ (s s' : State) (tr : List Ev), Ok s → (∀ i, (s.side i).finished) →
    runs (step cap) s as = some (s', tr) → s' = s := by
  intro s s' tr hok hf h
  rcases left_runs as s s' tr hok h with h1 | h1
  · exact h1.1
  · have a := hf false; have b := hf true
    have : s.left = 0 := by simp [State.left, Side.left, a.1, a.2, b.1, b.2]
    omega

theorem rounds_finish {cap : Bool → Nat} (hcap : ∀ i, 0 < cap i) {P : Bool → List Cmd} (hd : shape (P true) = flip (shape (P false)))
    (rounds : List (List Act)) : ∀ (s s' : State) (tr : List Ev), Ok s → Fit P s → (∀ r ∈ rounds, Round r) → s.left ≤ rounds.length →
      runs (step cap) s rounds.flatten = some (s', tr) → ∀ i, (s'.side i).finished := by
  induction rounds with
  | nil =>
    intro s s' tr hok hfit _ hl h
    simp [runs] at h
    obtain ⟨rfl, _⟩ := h
    have : ∀ i, (s.side i).finished := by
      have h0 : (s.side false).left = 0 ∧ (s.side true).left = 0 := by simp [State.left] at hl; omega
      have key : ∀ i, (s.side i).left = 0 → (s.side i).finished := by
        intro i hi
        simp only [Side.left] at hi
        constructor
        · cases hp : (s.side i).prog with
          | nil => rfl
          | cons c cs => simp [hp] at hi
        · cases hc : (s.side i).call with
          | none => rfl
          | some c =>
            cases c with
            | w bs k => have := (hok.w _ _ _ hc).1; simp [hc] at hi; omega
            | r buf k => have := (hok.r _ _ _ hc).1; simp [hc] at hi; omega
      intro i; cases i
      · exact key _ h0.1
      · exact key _ h0.2
    exact this
  | cons r rounds ih =>
    intro s s' tr hok hfit hr hl h
    obtain ⟨s1, e1, h1⟩ := runs_total cap r s
    obtain ⟨s2, e2, h2⟩ := runs_total cap rounds.flatten s1
    have h3 := runs_append h1 h2
    rw [List.flatten_cons, h3] at h
    simp only [Option.some.injEq, Prod.mk.injEq] at h
    obtain ⟨rfl, _⟩ := h
    obtain ⟨hok1, hfit1⟩ := fit_runs r _ _ _ hok hfit h1
    rcases left_runs r s s1 e1 hok h1 with ⟨rfl, hst⟩ | hlt
    · have hR := hr r List.mem_cons_self
      have hst' : ∀ i, Stuck cap s1 i := by
        intro i
        obtain ⟨a, ha, hai⟩ := hR i
        exact hai ▸ hst a ha
      have hfin := not_both_stuck hcap hd hok hfit (hst' false) (hst' true)
      have := finished_stays _ _ _ _ hok hfin h2
      rw [this]; exact hfin
    · exact ih s1 s2 e2 hok1 hfit1 (fun r' hr' => hr r' (List.mem_cons_of_mem _ hr')) (by simp at hl; omega) h2

/-! ## Messages -/

/-- The sizes of the reads in a shape. (Concerns co_client.cpp:25-63.) -/
def reads : List (Bool × Nat) → List Nat
  | [] => []
  | (false, n) :: l => n :: reads l
  | (true, _) :: l => reads l

/-- What has been read has the sizes that were asked for. (Concerns co_client.cpp:25-63.) -/
def Sized (P : Bool → List Cmd) (s : State) (tr : List Ev) : Prop :=
  ∀ i, (gots i tr).map List.length ++ reads (s.side i).shape = reads (shape (P i))

theorem sized_move {cap : Bool → Nat} {P : Bool → List Cmd} {s s' : State} {i : Bool} {es tr : List Ev} (hok : Ok s) (hm : Move cap s i s' es)
    (h : Sized P s tr) : Sized P s' (tr ++ es) := by
  intro j
  have hj := h j
  rw [gots_append]
  by_cases hji : j = i
  · subst hji
    cases hm with
    | idle => simpa [gots] using hj
    | again => simpa [gots] using hj
    | beginW h1 h2 h3 => rw [← hj]; simp [State.put, gots, Side.shape, h1, h2]
    | emptyW h1 h2 => rw [← hj]; simp [State.put, gots, Side.shape, h1, h2, reads]
    | beginR h1 h2 h3 => rw [← hj]; simp [State.put, gots, Side.shape, h1, h2]
    | emptyR h1 h2 => rw [← hj]; simp [State.put, gots, Side.shape, h1, h2, reads]
    | moreW h1 h2 h3 h4 => rw [← hj]; simp [State.put, State.queue, gots, Side.shape, h1]
    | lastW h1 h2 h3 h4 => rw [← hj]; simp [State.put, State.queue, gots, Side.shape, h1, reads]
    | @moreR buf k n h1 h2 h3 h4 =>
      obtain ⟨g1, g2, g3⟩ := hok.r _ _ _ h1
      have l0 : (ReadN.store buf (buf.length - k) ((s.sock (!j)).take n)).length = buf.length := store_length (by simp; omega)
      rw [← hj]; simp [State.put, State.queue, gots, Side.shape, h1, l0]
    | @lastR buf k h1 h2 h3 =>
      obtain ⟨g1, g2, g3⟩ := hok.r _ _ _ h1
      have l0 : (ReadN.store buf (buf.length - k) ((s.sock (!j)).take k)).length = buf.length := store_length (by simp; omega)
      rw [← hj]; simp [State.put, State.queue, gots, Side.shape, h1, l0, reads]
  · have hij : (i = j) = False := eq_false fun h => hji h.symm
    cases hm <;> simpa [State.put, State.queue, gots, hji, hij] using hj

theorem reads_flip (p : List Cmd) : reads (flip (shape p)) = (writes p).map List.length := by
  induction p with
  | nil => rfl
  | cons c p ih =>
    simp only [shape, flip, List.map_map] at ih
    cases c <;> simp [shape, flip, reads, writes, ih]

theorem prefix_of_lengths {α : Type} : ∀ (a b : List (List α)), a.map List.length <+: b.map List.length → a.flatten <+: b.flatten → a <+: b
  | [], _, _, _ => List.nil_prefix
  | x :: a, [], h, _ => by simp at h
  | x :: a, y :: b, h1, h2 => by
    simp only [List.map_cons, List.cons_prefix_cons] at h1
    simp only [List.flatten_cons] at h2
    obtain ⟨t, ht⟩ := h2
    rw [List.append_assoc] at ht
    obtain ⟨rfl, h3⟩ := List.append_inj ht h1.1
    simp only [List.cons_prefix_cons, true_and]
    exact prefix_of_lengths a b h1.2 ⟨t, h3⟩

theorem sized_runs {cap : Bool → Nat} {P : Bool → List Cmd} (hf : Fits P) (as : List Act) (s : State) (tr : List Ev)
    (h : runs (step cap) (State.init P) as = some (s, tr)) : Sized P s tr := by
  have := runs_hist (step := step cap) (fun s tr => Ok s ∧ Sized P s tr)
    (fun s a s' es tr hI hs => ⟨ok_move hI.1 (step_move hI.1 hs), sized_move hI.1 (step_move hI.1 hs) hI.2⟩) as _ s tr []
    ⟨⟨fun i bs k h => by simp [State.init] at h, fun i bs k h => by simp [State.init] at h, fun i c hc => hf i c hc⟩,
      fun j => by simp [State.init, gots, Side.shape, shape]⟩ h
  simpa using this.2

theorem dual_flip {P : Bool → List Cmd} (hd : Dual (P false) (P true)) (i : Bool) : shape (P (!i)) = flip (shape (P i)) := by
  cases i
  · exact hd.flip
  · rw [show (!true) = false from rfl, hd.flip, flip, flip, List.map_map]
    have : ((fun x : Bool × Nat => (!x.1, x.2)) ∘ fun x => (!x.1, x.2)) = id := by funext x; simp
    rw [this, List.map_id]

/-- **C129 (messages).** If whenever one client writes, the other reads as many bytes, then every `read_n` returns exactly the message that the
other side's `write_n` was given, the first the first, the second the second and so on, in whatever pieces the kernel moves them. -/
theorem C129_messages {cap : Bool → Nat} {P : Bool → List Cmd} (hf : Fits P) (hd : Dual (P false) (P true)) (as : List Act) (s : State) (tr : List Ev)
    (h : runs (step cap) (State.init P) as = some (s, tr)) (i : Bool) : gots (!i) tr <+: writes (P i) := by
  refine prefix_of_lengths _ _ ?_ (C129_stream hf as s tr h i)
  have := sized_runs hf as s tr h (!i)
  rw [dual_flip hd, reads_flip] at this
  exact ⟨_, this⟩

/-- **C129 (the conversation ends).** If whenever one client writes, the other reads as many bytes, then the conversation is over after a
bounded number of rounds in each of which both clients go on at least once, whatever the kernel does: all calls have returned, and each
client has got all messages of the other. The queues may be as small as one byte. -/
theorem C129_finishes {cap : Bool → Nat} (hcap : ∀ i, 0 < cap i) {P : Bool → List Cmd} (hf : Fits P) (hd : Dual (P false) (P true))
    (rounds : List (List Act)) (hr : ∀ r ∈ rounds, Round r) (hn : ((P false ++ P true).map fun c => c.size + 1).sum ≤ rounds.length) :
    ∃ s tr, runs (step cap) (State.init P) rounds.flatten = some (s, tr) ∧ (∀ i, (s.side i).finished) ∧ ∀ i, gots (!i) tr = writes (P i) := by
  obtain ⟨s, tr, h⟩ := runs_total cap rounds.flatten (State.init P)
  have hok : Ok (State.init P) :=
    ⟨fun i bs k h => by simp [State.init] at h, fun i bs k h => by simp [State.init] at h, fun i c hc => hf i c hc⟩
  have hsh : ∀ i, ((State.init P).side i).shape = shape (P i) := fun i => by simp [State.init, Side.shape, shape]
  have hfit : Fit P (State.init P) := by
    refine ⟨fun i => by rw [hsh]; exact List.suffix_refl _, fun i => ?_⟩
    rw [hsh, hsh, dual_flip hd, total_flip]
    simp [State.init, Side.done]
  have hfin := rounds_finish hcap (dual_flip hd false) rounds _ s tr hok hfit hr (by
    simpa [State.left, Side.left, State.init] using hn) h
  refine ⟨s, tr, h, hfin, fun i => ?_⟩
  obtain ⟨t, ht⟩ := C129_messages hf hd _ s tr h i
  have hl := sized_runs hf _ s tr h (!i)
  rw [dual_flip hd, reads_flip] at hl
  have hz : (s.side (!i)).shape = [] := by simp [Side.shape, (hfin (!i)).1, (hfin (!i)).2]
  rw [hz] at hl
  have := congrArg List.length hl
  have h2 := congrArg List.length ht
  simp [reads] at this h2
  have : t = [] := List.length_eq_zero_iff.1 (by omega)
  rw [this, List.append_nil] at ht
  exact ht

/-- A request and a reply, over queues of two bytes and one byte. (Concerns co_client.cpp:25-63.) -/
def request : Bool → List Cmd
  | false => [.write [1, 2, 3], .read [0, 0]]
  | true => [.read [9, 9, 9], .write [7, 8]]

/-- The programs fit. -/
example : Dual (request false) (request true) := .write rfl (.read rfl .nil)

/-- One execution: the replying side asks too early, the first write is cut in two. -/
example : ∃ s, runs (step fun i => if i then 1 else 2) (State.init request)
    [⟨true, 0, 0⟩, ⟨true, 0, 0⟩, ⟨false, 0, 0⟩, ⟨false, 1, 11⟩, ⟨false, 0, 0⟩, ⟨true, 1, 0⟩, ⟨false, 0, 0⟩, ⟨true, 0, 0⟩, ⟨true, 0, 0⟩, ⟨true, 0, 0⟩,
      ⟨false, 0, 0⟩, ⟨false, 0, 0⟩, ⟨true, 0, 0⟩, ⟨false, 0, 0⟩] =
    some (s, [.again true, .again false, .wrote false [1, 2, 3] true, .got true [1, 2, 3] true, .wrote true [7, 8] true, .got false [7, 8] true]) :=
  ⟨_, rfl⟩

/-! ## Programs that do not fit -/

/-- **C129, when both write first.** If both clients begin with a message that is larger than the kernel takes at once, neither `write_n` ever
returns, under any schedule and whatever the clients would do afterwards: co_client has no way to read while it writes. -/
theorem C129_both_write {cap : Bool → Nat} {P : Bool → List Cmd} (bs : Bool → List UInt8) (rest : Bool → List Cmd) (hP : ∀ i, P i = .write (bs i) :: rest i)
    (hlong : ∀ i, cap i < (bs i).length) (hf : Fits P) (as : List Act) (s : State) (tr : List Ev) (h : runs (step cap) (State.init P) as = some (s, tr)) :
    ∀ e ∈ tr, ∃ i, e = .again i := by
  have key := runs_hist (step := step cap)
    (fun s tr => Ok s ∧ (∀ i, (s.side i = ⟨P i, none⟩ ∧ s.sock i = []) ∨ ∃ k, s.side i = ⟨rest i, some (.w (bs i) k)⟩ ∧ (s.sock i).length = k ∧ k ≤ cap i) ∧
      ∀ e ∈ tr, ∃ i, e = Ev.again i)
    (fun s a s' es tr hI hs => by
      obtain ⟨hok, hI, he⟩ := hI
      have hm := step_move hok hs
      refine ⟨ok_move hok hm, ?_⟩
      obtain ⟨i, pick, st⟩ := a
      change Move cap s i s' es at hm
      have hlo := hlong i
      rcases hI i with ⟨h1, h2⟩ | ⟨k, h1, h2, h3⟩
      · rw [hP] at h1
        cases hm with
        | idle g => simp [Side.finished, h1] at g
        | again g => simp [h1] at g
        | beginW g1 g2 g3 =>
          simp only [h1, List.cons.injEq, Cmd.write.injEq] at g2
          obtain ⟨rfl, rfl⟩ := g2
          refine ⟨fun j => ?_, by simpa using he⟩
          by_cases hj : j = i
          · subst hj; exact .inr ⟨0, by simp [State.put], by simp [State.put, h2], by omega⟩
          · simpa [State.put, hj] using hI j
        | emptyW g1 g2 =>
          simp only [h1, List.cons.injEq, Cmd.write.injEq] at g2
          rw [g2.1] at hlo; simp at hlo
        | beginR g1 g2 => simp [h1] at g2
        | emptyR g1 g2 => simp [h1] at g2
        | moreW g1 => simp [h1] at g1
        | lastW g1 => simp [h1] at g1
        | moreR g1 => simp [h1] at g1
        | lastR g1 => simp [h1] at g1
      · cases hm with
        | idle g => simp [Side.finished, h1] at g
        | again g =>
          refine ⟨hI, fun e hm => ?_⟩
          simp only [List.mem_append, List.mem_singleton] at hm
          rcases hm with hm | rfl
          · exact he e hm
          · exact ⟨i, rfl⟩
        | beginW g1 => simp [h1] at g1
        | emptyW g1 => simp [h1] at g1
        | beginR g1 => simp [h1] at g1
        | emptyR g1 => simp [h1] at g1
        | @moreW b k' n g1 g2 g3 g4 =>
          simp only [h1, Option.some.injEq, Call.w.injEq] at g1
          obtain ⟨rfl, rfl⟩ := g1
          refine ⟨fun j => ?_, by simpa using he⟩
          by_cases hj : j = i
          · subst hj
            refine .inr ⟨k + n, by simp [State.put, h1], ?_, by omega⟩
            simp [State.put, State.queue, h2]; omega
          · simpa [State.put, State.queue, hj] using hI j
        | lastW g1 g2 g3 g4 =>
          simp only [h1, Option.some.injEq, Call.w.injEq] at g1
          obtain ⟨rfl, rfl⟩ := g1
          omega
        | moreR g1 => simp [h1] at g1
        | lastR g1 => simp [h1] at g1) as _ s tr []
    ⟨⟨fun i bs k h => by simp [State.init] at h, fun i bs k h => by simp [State.init] at h, fun i c hc => hf i c hc⟩, fun i => .inl ⟨rfl, rfl⟩, by simp⟩ h
  simpa using key.2.2

/-- Two bytes each into queues of one byte: after the first byte both get `EAGAIN` for ever. -/
example : ∃ s, runs (step fun _ => 1) (State.init fun _ => [.write [1, 2], .read [0, 0]])
    [⟨true, 0, 0⟩, ⟨true, 0, 0⟩, ⟨false, 0, 0⟩, ⟨false, 1, 11⟩, ⟨false, 0, 0⟩, ⟨true, 1, 0⟩, ⟨false, 0, 0⟩] = some (s, [.again false, .again true, .again false]) :=
  ⟨_, rfl⟩

end Verif.Talk
