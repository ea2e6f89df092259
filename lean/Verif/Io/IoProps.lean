import Verif.Io.Io

/-! # C81 – C84: input and output -/

namespace Verif.Io

theorem toInt_small {n : Nat} (h : n ≤ maxRw) : toInt n = n := by
  unfold toInt maxRw at *
  have : n % 2 ^ 32 = n := Nat.mod_eq_of_lt (by omega)
  simp only [this]
  rw [if_pos (by omega)]

/-! ## C84 -/

/-- The outcomes a call is not to report: would-block, and for socket calls an interrupt. (Concerns co_io.cpp:36-147, co_net.cpp:31-220, co_client.cpp:15-63.) -/
def Skips (socket : Bool) (o : Out) : Prop := o = .err EAGAIN ∨ (socket = true ∧ o = .err EINTR)

/-- The caller sees the outcome `o` unchanged. (Concerns co_io.cpp:36-147, co_net.cpp:31-220, co_client.cpp:15-63.) -/
def Reports (o : Out) (r : Int) (errno : Nat) : Prop :=
  match o with
  | .ok n => r = n
  | .err e => r = -1 ∧ errno = e

/-- The calls of the two classes: `co_io` and `co_net`. (Concerns co_io.cpp:36-147, co_net.cpp:31-220, co_client.cpp:15-63.) -/
def Op.socket : Op → Option Bool
  | .read => some false
  | .write => some false
  | .sendto => none
  | _ => some true

theorem step_skip {op : Op} {b : Bool} (hb : op.socket = some b) (a : Act) (hn : ∀ n, a.out = .ok n → n ≤ maxRw) :
    (a.out.ret = -1 ∧ op.again (a.out.errno a.stale) = true) ↔ Skips b a.out := by
  obtain ⟨o, st⟩ := a
  cases o with
  | ok n =>
    have := toInt_small (hn n rfl)
    simp only [Out.ret, this, Skips, reduceCtorEq, and_false, or_false, iff_false]
    rintro ⟨h, _⟩
    omega
  | err e =>
    cases op <;> simp [Op.socket] at hb <;> subst hb <;> simp [Out.ret, Out.errno, Op.again, Skips, or_comm] <;> exact decide_eq_true_iff

theorem step_report (a : Act) (hn : ∀ n, a.out = .ok n → n ≤ maxRw) : Reports a.out a.out.ret (a.out.errno a.stale) := by
  obtain ⟨o, st⟩ := a
  cases o with
  | ok n => exact toInt_small (hn n rfl)
  | err e => exact ⟨rfl, rfl⟩

/-- **C84.** `co_io::read`, `write` and `co_net::send`, `recv`, `recvfrom`, `sendmsg`, `recvmsg`, for every sequence of
kernel outcomes and every stale `errno`: the call returns exactly when an outcome arrives that is not to be skipped, that
outcome is the last system call made, and it is what the caller sees. -/
theorem C84_first_outcome_partial (op : Op) (b : Bool) (hb : op.socket = some b) (as : List Act)
    (hn : ∀ a ∈ as, ∀ n, a.out = .ok n → n ≤ maxRw) (p : Pc) (es : List Ev) (h : runs (step op) .loop as = some (p, es)) :
    (p = .loop ∧ ∀ a ∈ as, Skips b a.out) ∨
    (∃ pre a r e, as = pre ++ [a] ∧ p = .done r e ∧ (∀ x ∈ pre, Skips b x.out) ∧ ¬ Skips b a.out ∧ Reports a.out r e) := by
  induction as generalizing es with
  | nil =>
    simp only [runs, Option.some.injEq, Prod.mk.injEq] at h
    exact .inl ⟨h.1.symm, by simp⟩
  | cons a as ih =>
    obtain ⟨s', e1, e2, h1, h2, rfl⟩ := runs_cons h
    have hna := hn a (List.mem_cons_self ..)
    have hsk := step_skip hb a hna
    simp only [step] at h1
    split at h1
    · rename_i hc
      simp only [Option.some.injEq, Prod.mk.injEq] at h1
      obtain ⟨rfl, rfl⟩ := h1
      rcases ih (fun x hx => hn x (List.mem_cons_of_mem _ hx)) _ h2 with ⟨h3, h4⟩ | ⟨pre, x, r, e, rfl, h4, h5, h6⟩
      · refine .inl ⟨h3, ?_⟩
        intro x hx
        rcases List.mem_cons.1 hx with rfl | hx
        · exact hsk.1 hc
        · exact h4 x hx
      · refine .inr ⟨a :: pre, x, r, e, rfl, h4, ?_, h6⟩
        intro y hy
        rcases List.mem_cons.1 hy with rfl | hy
        · exact hsk.1 hc
        · exact h5 y hy
    · rename_i hc
      simp only [Option.some.injEq, Prod.mk.injEq] at h1
      obtain ⟨rfl, rfl⟩ := h1
      cases as with
      | nil =>
        simp only [runs, Option.some.injEq, Prod.mk.injEq] at h2
        exact .inr ⟨[], a, _, _, rfl, h2.1.symm, by simp, fun hs => hc (hsk.2 hs), step_report a hna⟩
      | cons a' as => simp [runs, step] at h2

/-- **C84.** The call always has a next step while it is in the loop: it never gets stuck. -/
theorem C84_never_stuck (op : Op) (a : Act) : ∃ q, step op .loop a = some q := by
  simp only [step]
  split <;> exact ⟨_, rfl⟩

/-- **C84, outside the property.** `sendto` reports whatever the first call says, also a would-block. -/
theorem C84_sendto_would_block : runs (step .sendto) .loop [⟨.err EAGAIN, 0⟩] =
    some (.done (-1) EAGAIN, [.sys (.err EAGAIN), .ret (-1) EAGAIN]) := by decide

/-- **C84, negation for `read` and `write` on sockets.** An interrupted call is reported as an error. -/
theorem C84_read_interrupted (stale : Nat) : step .read .loop ⟨.err EINTR, stale⟩ =
    some (.done (-1) EINTR, [.sys (.err EINTR), .ret (-1) EINTR]) := by
  simp [step, Out.ret, Out.errno, Op.again, EINTR, EAGAIN]

example : runs (step .recv) .loop [⟨.err EAGAIN, 0⟩, ⟨.err EINTR, 0⟩, ⟨.ok 12, 11⟩] =
    some (.done 12 11, [.sys (.err EAGAIN), .yield, .sys (.err EINTR), .yield, .sys (.ok 12), .ret 12 11]) := by decide

/-- Without the kernel's limit the conversion to `int` would lose the result. -/
example : step .recv .loop ⟨.ok (2 ^ 32 - 1), EAGAIN⟩ = some (.loop, [.sys (.ok (2 ^ 32 - 1)), .yield]) := by decide

namespace Accept

/-- **C84 for `accept`, the part that holds.** The first outcome that is neither would-block nor interrupt ends the call; an
error gives `nullopt`; a descriptor `n` for which the `fcntl` calls succeed is what the returned object owns. -/
theorem C84_accept_partial (as : List Act) (hn : ∀ a ∈ as, ∀ n, a.out = .ok n → n < 2 ^ 31) (p : Pc) (es : List Ev)
    (h : runs step .loop as = some (p, es)) :
    (p = .loop ∧ ∀ a ∈ as, Skips true a.out) ∨
    (∃ pre a r, as = pre ++ [a] ∧ p = .done r ∧ (∀ x ∈ pre, Skips true x.out) ∧ ¬ Skips true a.out ∧
      ((∃ e, a.out = .err e ∧ r = none) ∨
       (∃ n : Nat, a.out = .ok n ∧ (r = some (n : Int) ∨ (r = some (-1) ∧ (a.getfl = false ∨ a.setfl = false)))))) := by
  induction as generalizing es with
  | nil =>
    simp only [runs, Option.some.injEq, Prod.mk.injEq] at h
    exact .inl ⟨h.1.symm, by simp⟩
  | cons a as ih =>
    obtain ⟨s', e1, e2, h1, h2, rfl⟩ := runs_cons h
    have hna := hn a (List.mem_cons_self ..)
    have stop : ∀ r, s' = .done r → as = [] ∧ p = .done r := by
      rintro r rfl
      cases as with
      | nil =>
        simp only [runs, Option.some.injEq, Prod.mk.injEq] at h2
        exact ⟨rfl, h2.1.symm⟩
      | cons a' as => simp [runs, step] at h2
    cases ho : a.out with
    | ok n =>
      have hlt := hna n ho
      have hr : a.out.ret = n := by
        rw [ho]
        simp only [Out.ret, toInt, Nat.mod_eq_of_lt (by omega : n < 2 ^ 32)]
        rw [if_pos hlt]
      simp only [step, hr] at h1
      rw [if_neg (by omega)] at h1
      simp only [Option.some.injEq, Prod.mk.injEq] at h1
      obtain ⟨rfl, rfl⟩ := h1
      obtain ⟨rfl, rfl⟩ := stop _ rfl
      refine .inr ⟨[], a, _, rfl, rfl, by simp, by simp [Skips, ho], .inr ⟨n, ho, ?_⟩⟩
      unfold initFd
      split
      · rename_i hg; exact .inr ⟨rfl, .inl hg⟩
      · split
        · rename_i hg; exact .inr ⟨rfl, .inr hg.2⟩
        · exact .inl rfl
    | err e =>
      simp only [step, ho, Out.ret, Out.errno, if_true] at h1
      split at h1
      · rename_i hc
        simp only [Option.some.injEq, Prod.mk.injEq] at h1
        obtain ⟨rfl, rfl⟩ := h1
        have hsk : Skips true a.out := by rw [ho]; simpa [Skips, or_comm] using hc
        rcases ih (fun x hx => hn x (List.mem_cons_of_mem _ hx)) _ h2 with ⟨h3, h4⟩ | ⟨pre, x, r, rfl, h4, h5, h6⟩
        · refine .inl ⟨h3, ?_⟩
          intro x hx
          rcases List.mem_cons.1 hx with rfl | hx
          · exact hsk
          · exact h4 x hx
        · refine .inr ⟨a :: pre, x, r, rfl, h4, ?_, h6⟩
          intro y hy
          rcases List.mem_cons.1 hy with rfl | hy
          · exact hsk
          · exact h5 y hy
      · rename_i hc
        simp only [Option.some.injEq, Prod.mk.injEq] at h1
        obtain ⟨rfl, rfl⟩ := h1
        obtain ⟨rfl, rfl⟩ := stop _ rfl
        refine .inr ⟨[], a, _, rfl, rfl, by simp, ?_, .inl ⟨e, ho, rfl⟩⟩
        rw [ho]
        simpa [Skips, or_comm] using hc

/-- **C84, negation for `accept`.** If `fcntl` fails the connection is accepted, but the caller gets an object without it
and has no way to close it. -/
theorem C84_accept_loses_connection (n stale : Nat) (nb st : Bool) (hn : n < 2 ^ 31) :
    step .loop ⟨.ok n, false, nb, st, stale⟩ = some (.done (some (-1)), [.sys (.ok n), .ret (-1) stale]) := by
  have hr : (Out.ok n).ret = n := by
    simp only [Out.ret, toInt, Nat.mod_eq_of_lt (by omega : n < 2 ^ 32)]
    rw [if_pos hn]
  simp only [step, hr]
  rw [if_neg (by omega)]
  simp [initFd, Out.errno]

example : ∃ es, runs step .loop [⟨.err EAGAIN, true, true, true, 0⟩, ⟨.ok 7, true, false, true, 11⟩] =
    some (.done (some 7), es) := ⟨_, rfl⟩

end Accept

/-! ## C81 -/

namespace WriteN

/-- The bytes the kernel took, in order. (Concerns co_io.cpp:36-147, co_net.cpp:31-220, co_client.cpp:15-63.) -/
def accepted (buf : List UInt8) : List Ev → List UInt8
  | [] => []
  | .sys off _ (.ok n) :: es => (buf.drop off).take n ++ accepted buf es
  | _ :: es => accepted buf es

/-- The kernel accepts at most what it was given, and at most `maxRw`. (Concerns co_io.cpp:36-147, co_net.cpp:31-220, co_client.cpp:15-63.) -/
def Conforms (es : List Ev) : Prop := ∀ off cnt n, Ev.sys off cnt (.ok n) ∈ es → n ≤ cnt ∧ n ≤ maxRw

theorem accepted_append (buf : List UInt8) (es es' : List Ev) :
    accepted buf (es ++ es') = accepted buf es ++ accepted buf es' := by
  induction es with
  | nil => rfl
  | cons e es ih =>
    cases e with
    | sys off cnt o => cases o <;> simp [accepted, ih]
    | yield => simp [accepted, ih]
    | ret b => simp [accepted, ih]

/-- What holds between two system calls: the first `sent` bytes have been taken. (Concerns co_io.cpp:36-147, co_net.cpp:31-220, co_client.cpp:15-63.) -/
structure Inv (buf : List UInt8) (p : Pc) (tr : List Ev) : Prop where
  loop : ∀ k, p = .loop k → k < buf.length ∧ accepted buf tr = buf.take k
  good : p = .done true → accepted buf tr = buf
  bad : p = .done false → ∃ k, k < buf.length ∧ accepted buf tr = buf.take k
  calls : ∀ off cnt o, Ev.sys off cnt o ∈ tr → off + cnt = buf.length ∧ 0 < cnt

theorem inv_enter (buf : List UInt8) (k : Nat) (tr : List Ev) (hk : k ≤ buf.length) (ha : accepted buf tr = buf.take k)
    (hc : ∀ off cnt o, Ev.sys off cnt o ∈ tr → off + cnt = buf.length ∧ 0 < cnt) :
    Inv buf (enter buf.length k).1 (tr ++ (enter buf.length k).2) := by
  unfold enter
  split
  · rename_i h
    simp only [List.append_nil]
    refine ⟨?_, by simp, by simp, hc⟩
    intro j hj
    simp only [Pc.loop.injEq] at hj
    exact hj ▸ ⟨h, ha⟩
  · rename_i h
    have : k = buf.length := by omega
    subst this
    refine ⟨by simp, ?_, by simp, ?_⟩
    · intro _
      simp [accepted_append, accepted, ha]
    · intro off cnt o hm
      simp only [List.mem_append, List.mem_singleton, reduceCtorEq, or_false] at hm
      exact hc off cnt o hm

theorem inv_step {buf : List UInt8} (hbuf : buf.length < 2 ^ 63) {p p' : Pc} {a : Act} {es tr : List Ev} (hI : Inv buf p tr)
    (hcf : Conforms es) (hs : step buf.length p a = some (p', es)) : Inv buf p' (tr ++ es) := by
  cases p with
  | done b => simp [step] at hs
  | loop k =>
    obtain ⟨hk, ha⟩ := hI.loop k rfl
    obtain ⟨o, st⟩ := a
    have hc : ∀ off cnt o', Ev.sys off cnt o' ∈ tr ++ [Ev.sys k (buf.length - k) o] → off + cnt = buf.length ∧ 0 < cnt := by
      intro off cnt o' hm
      simp only [List.mem_append, List.mem_singleton, Ev.sys.injEq] at hm
      rcases hm with hm | ⟨rfl, rfl, rfl⟩
      · exact hI.calls _ _ _ hm
      · omega
    cases o with
    | ok n =>
      have hn : n ≤ buf.length - k ∧ n ≤ maxRw := by
        simp only [step] at hs
        repeat' split at hs
        all_goals simp only [Option.some.injEq, Prod.mk.injEq] at hs
        all_goals exact hcf k (buf.length - k) n (by rw [← hs.2]; simp)
      have hr := toInt_small hn.2
      simp only [step, Out.ret, hr] at hs
      rw [if_neg (by omega), if_neg (by omega)] at hs
      simp only [Int.toNat_natCast, Option.some.injEq, Prod.mk.injEq] at hs
      obtain ⟨rfl, rfl⟩ := hs
      have hm : (k + n) % 2 ^ 64 = k + n := Nat.mod_eq_of_lt (by omega)
      rw [hm]
      have := inv_enter buf (k + n) (tr ++ [Ev.sys k (buf.length - k) (.ok n)]) (by omega)
        (by simp [accepted_append, accepted, ha, List.take_add]) hc
      simpa using this
    | err e =>
      have hacc : accepted buf (tr ++ [Ev.sys k (buf.length - k) (.err e)]) = buf.take k := by
        simp [accepted_append, accepted, ha]
      simp only [step, Out.ret, Out.errno, true_and] at hs
      split at hs
      · simp only [Option.some.injEq, Prod.mk.injEq] at hs
        obtain ⟨rfl, rfl⟩ := hs
        refine ⟨?_, by simp, by simp, ?_⟩
        · intro j hj
          simp only [Pc.loop.injEq] at hj
          subst hj
          exact ⟨hk, by simp [accepted_append, accepted, ha]⟩
        · intro off cnt o' hm
          refine hc off cnt o' ?_
          simp only [List.mem_append, List.mem_cons, reduceCtorEq, List.not_mem_nil, or_false] at hm ⊢
          exact hm
      · simp only [show (-1 : Int) < 0 by omega, if_true] at hs
        simp only [Option.some.injEq, Prod.mk.injEq] at hs
        obtain ⟨rfl, rfl⟩ := hs
        refine ⟨by simp, by simp, fun _ => ⟨k, hk, by simp [accepted_append, accepted, ha]⟩, ?_⟩
        intro off cnt o' hm
        refine hc off cnt o' ?_
        simp only [List.mem_append, List.mem_cons, reduceCtorEq, List.not_mem_nil, or_false] at hm ⊢
        exact hm

theorem inv_run {buf : List UInt8} (hbuf : buf.length < 2 ^ 63) (as : List Act) (p : Pc) (es : List Ev)
    (h : run buf.length as = some (p, es)) (hcf : Conforms es) : Inv buf p es := by
  simp only [run, Option.map_eq_some_iff] at h
  obtain ⟨⟨p', es'⟩, h1, h2⟩ := h
  simp only [Prod.mk.injEq] at h2
  obtain ⟨rfl, rfl⟩ := h2
  have := runs_hist (step := step buf.length) (fun p tr => Conforms tr → Inv buf p tr)
    (fun s a s' es tr hI hs hu => inv_step hbuf
      (hI (fun o c n hm => hu o c n (List.mem_append_left _ hm)))
      (fun o c n hm => hu o c n (List.mem_append_right _ hm)) hs)
    as _ p' es' (enter buf.length 0).2
    (fun _ => by
      have := inv_enter buf 0 [] (by omega) (by simp [accepted]) (by simp)
      simpa using this) h1
  exact this hcf

/-- **C81.** Whatever partial writes, would-blocks and errors occur: if `write_n` reports success the kernel has taken exactly
the bytes of the buffer, in order. -/
theorem C81_write_n_success (buf : List UInt8) (hbuf : buf.length < 2 ^ 63) (as : List Act) (es : List Ev)
    (h : run buf.length as = some (.done true, es)) (hcf : Conforms es) : accepted buf es = buf :=
  (inv_run hbuf as _ es h hcf).good rfl

/-- **C81.** At any other time, and if `write_n` reports an error, the kernel has taken a proper prefix of the buffer. -/
theorem C81_write_n_prefix (buf : List UInt8) (hbuf : buf.length < 2 ^ 63) (as : List Act) (p : Pc) (es : List Ev)
    (h : run buf.length as = some (p, es)) (hcf : Conforms es) (hp : p ≠ .done true) :
    ∃ k, k < buf.length ∧ accepted buf es = buf.take k := by
  have hI := inv_run hbuf as p es h hcf
  cases p with
  | loop k => exact ⟨k, hI.loop k rfl⟩
  | done b =>
    cases b with
    | true => exact absurd rfl hp
    | false => exact hI.bad rfl

/-- **C81.** Every system call asks the kernel for the rest of the buffer and nothing beyond its end. -/
theorem C81_write_n_inside (buf : List UInt8) (hbuf : buf.length < 2 ^ 63) (as : List Act) (p : Pc) (es : List Ev)
    (h : run buf.length as = some (p, es)) (hcf : Conforms es) (off cnt : Nat) (o : Out) (hm : Ev.sys off cnt o ∈ es) :
    off + cnt = buf.length ∧ 0 < cnt :=
  (inv_run hbuf as p es h hcf).calls off cnt o hm

/-- Five bytes, taken in three parts with a would-block in between. -/
example : ∃ es, run 5 [⟨.ok 2, 0⟩, ⟨.err EAGAIN, 0⟩, ⟨.ok 1, 11⟩, ⟨.ok 2, 11⟩] = some (.done true, es) ∧
    accepted [1, 2, 3, 4, 5] es = [1, 2, 3, 4, 5] := ⟨_, rfl, rfl⟩

/-- An error after two bytes. -/
example : ∃ es, run 5 [⟨.ok 2, 0⟩, ⟨.err 32, 0⟩] = some (.done false, es) ∧
    accepted [1, 2, 3, 4, 5] es = [1, 2] := ⟨_, rfl, rfl⟩

/-- What the caller is told is what the theorems above say of `done`: `write_n` has returned `ok` exactly if it is at `done ok`. -/
theorem ret_iff {size : Nat} {as : List Act} {p : Pc} {es : List Ev} (h : run size as = some (p, es)) (ok : Bool) :
    Ev.ret ok ∈ es ↔ p = .done ok := by
  have hE : ∀ k, Ev.ret ok ∈ (enter size k).2 ↔ (enter size k).1 = .done ok := by
    intro k; unfold enter; split <;> simp [eq_comm]
  have key : ∀ (as : List Act) (p p' : Pc) (es : List Ev), runs (step size) p as = some (p', es) →
      ((Ev.ret ok ∈ es ∨ p = .done ok) ↔ p' = .done ok) := by
    intro as
    induction as with
    | nil => intro p p' es h; cases h; simp
    | cons a as ih =>
      intro p p' es h
      obtain ⟨q, e1, e2, h1, h2, rfl⟩ := runs_cons h
      have hst : p ≠ .done ok ∧ (Ev.ret ok ∈ e1 ↔ q = .done ok) := by
        clear h h2 ih
        cases p with
        | done b => simp [step] at h1
        | loop sent =>
          refine ⟨by simp, ?_⟩
          obtain ⟨o, st⟩ := a
          simp only [step] at h1
          split at h1
          · simp only [Option.some.injEq, Prod.mk.injEq] at h1
            obtain ⟨rfl, rfl⟩ := h1
            simp
          · split at h1
            · simp only [Option.some.injEq, Prod.mk.injEq] at h1
              obtain ⟨rfl, rfl⟩ := h1
              simp [eq_comm]
            · simp only [Option.some.injEq, Prod.mk.injEq] at h1
              obtain ⟨rfl, rfl⟩ := h1
              rw [List.mem_cons, hE]
              simp only [reduceCtorEq, false_or]
      rw [← ih q p' e2 h2, List.mem_append, hst.2]
      constructor
      · rintro ((h | h) | h)
        · exact Or.inr h
        · exact Or.inl h
        · exact absurd h hst.1
      · rintro (h | h)
        · exact Or.inl (Or.inr h)
        · exact Or.inl (Or.inl h)
  simp only [run, Option.map_eq_some_iff] at h
  obtain ⟨⟨q, e⟩, h1, h2⟩ := h
  cases h2
  rw [← key as _ _ _ h1, List.mem_append, hE, or_comm]

/-- An empty buffer is written at once. -/
example : run 0 [] = some (.done true, [.ret true]) := rfl

end WriteN

/-! ## C82 -/

namespace ReadN

/-- The bytes the kernel delivered, in order: the stream. (Concerns co_io.cpp:36-147, co_net.cpp:31-220, co_client.cpp:15-63.) -/
def delivered : List Ev → List UInt8
  | [] => []
  | .sys _ _ (.ok bs) :: es => bs ++ delivered es
  | _ :: es => delivered es

/-- The kernel delivers at most what was asked for, and at most `maxRw`. (Concerns co_io.cpp:36-147, co_net.cpp:31-220, co_client.cpp:15-63.) -/
def Conforms (es : List Ev) : Prop := ∀ off cnt bs, Ev.sys off cnt (.ok bs) ∈ es → bs.length ≤ cnt ∧ bs.length ≤ maxRw

theorem delivered_append (es es' : List Ev) : delivered (es ++ es') = delivered es ++ delivered es' := by
  induction es with
  | nil => rfl
  | cons e es ih =>
    cases e with
    | sys off cnt o => cases o <;> simp [delivered, ih]
    | yield => simp [delivered, ih]
    | ret b => simp [delivered, ih]

/-- Proof device: the buffer starts with the delivered bytes and keeps its length and the rest of its old contents. (Concerns co_io.cpp:36-147, co_net.cpp:31-220, co_client.cpp:15-63.) -/
structure Inv (buf : List UInt8) (s : State) (tr : List Ev) : Prop where
  fits : (delivered tr).length ≤ buf.length
  bytes : s.buf = delivered tr ++ buf.drop (delivered tr).length
  loop : ∀ k, s.pc = .loop k → (delivered tr).length + k = buf.length ∧ 0 < k
  good : s.pc = .done true → (delivered tr).length = buf.length
  bad : s.pc = .done false → ∃ off cnt e, Ev.sys off cnt (.err e) ∈ tr ∧ e ≠ EAGAIN
  calls : ∀ off cnt o, Ev.sys off cnt o ∈ tr → off + cnt = buf.length ∧ 0 < cnt

theorem Inv.len {buf : List UInt8} {s : State} {tr : List Ev} (h : Inv buf s tr) : s.buf.length = buf.length := by
  rw [h.bytes]
  have := h.fits
  simp
  omega

theorem inv_step {buf : List UInt8} (hbuf : buf.length < 2 ^ 63) {s s' : State} {a : Act} {es tr : List Ev} (hI : Inv buf s tr)
    (hcf : Conforms es) (hs : step s a = some (s', es)) : Inv buf s' (tr ++ es) := by
  obtain ⟨sb, pc⟩ := s
  cases pc with
  | done b => simp [step] at hs
  | loop k =>
    obtain ⟨hk, hk0⟩ := hI.loop k rfl
    obtain ⟨o, st⟩ := a
    have hlen := hI.len
    simp only at hlen
    have hoff : sb.length - k = (delivered tr).length := by omega
    have hb := hI.bytes
    simp only at hb
    have hc : ∀ off cnt o', Ev.sys off cnt o' ∈ tr ++ [Ev.sys (sb.length - k) k o] → off + cnt = buf.length ∧ 0 < cnt := by
      intro off cnt o' hm
      simp only [List.mem_append, List.mem_singleton, Ev.sys.injEq] at hm
      rcases hm with hm | ⟨rfl, rfl, rfl⟩
      · exact hI.calls _ _ _ hm
      · omega
    cases o with
    | ok bs =>
      have hn : bs.length ≤ k ∧ bs.length ≤ maxRw := by
        simp only [step] at hs
        repeat' split at hs
        all_goals simp only [Option.some.injEq, Prod.mk.injEq] at hs
        all_goals exact hcf (sb.length - k) k bs (by rw [← hs.2]; simp)
      have hr := toInt_small hn.2
      have hfill : store sb (sb.length - k) bs = (delivered tr ++ bs) ++ buf.drop ((delivered tr).length + bs.length) := by
        unfold store
        rw [hoff, hb]
        simp [List.drop_append, List.drop_drop]
      simp only [step, Out.ret, Out.fill, hr] at hs
      rw [if_neg (by omega), if_neg (by omega)] at hs
      have hm : (k + 2 ^ 64 - bs.length) % 2 ^ 64 = k - bs.length := by
        have : k + 2 ^ 64 - bs.length = (k - bs.length) + 2 ^ 64 := by omega
        rw [this, Nat.add_mod_right, Nat.mod_eq_of_lt (by omega)]
      simp only [Int.toNat_natCast, hm, Option.some.injEq, Prod.mk.injEq] at hs
      obtain ⟨rfl, rfl⟩ := hs
      unfold enter
      split
      · rename_i hpos
        have hd : delivered (tr ++ [Ev.sys (sb.length - k) k (.ok bs)]) = delivered tr ++ bs := by
          simp [delivered_append, delivered]
        refine ⟨?_, ?_, ?_, by simp, by simp, hc⟩
        · rw [hd]; simp; omega
        · rw [hd]; simpa using hfill
        · intro j hj
          simp only [Pc.loop.injEq] at hj
          rw [hd]; simp; omega
      · rename_i hpos
        have hd : delivered (tr ++ [Ev.sys (sb.length - k) k (.ok bs), .ret true]) = delivered tr ++ bs := by
          simp [delivered_append, delivered]
        refine ⟨?_, ?_, by simp, ?_, by simp, ?_⟩
        · rw [hd]; simp; omega
        · rw [hd]; simpa using hfill
        · intro _
          rw [hd]; simp; omega
        · intro off cnt o' hm
          refine hc off cnt o' ?_
          simp only [List.mem_append, List.mem_cons, reduceCtorEq, List.not_mem_nil, or_false] at hm ⊢
          exact hm
    | err e =>
      simp only [step, Out.ret, Out.errno, Out.fill, true_and] at hs
      split at hs
      · simp only [Option.some.injEq, Prod.mk.injEq] at hs
        obtain ⟨rfl, rfl⟩ := hs
        have hd : delivered (tr ++ [Ev.sys (sb.length - k) k (.err e), .yield]) = delivered tr := by
          simp [delivered_append, delivered]
        refine ⟨by rw [hd]; exact hI.fits, by rw [hd]; exact hb, ?_, by simp, by simp, ?_⟩
        · intro j hj
          rw [hd]
          simp only [Pc.loop.injEq] at hj
          omega
        · intro off cnt o' hm
          refine hc off cnt o' ?_
          simp only [List.mem_append, List.mem_cons, reduceCtorEq, List.not_mem_nil, or_false] at hm ⊢
          exact hm
      · rename_i hne
        simp only [show (-1 : Int) < 0 by omega, if_true] at hs
        simp only [Option.some.injEq, Prod.mk.injEq] at hs
        obtain ⟨rfl, rfl⟩ := hs
        have hd : delivered (tr ++ [Ev.sys (sb.length - k) k (.err e), .ret false]) = delivered tr := by
          simp [delivered_append, delivered]
        refine ⟨by rw [hd]; exact hI.fits, by rw [hd]; exact hb, by simp, by simp, ?_, ?_⟩
        · intro _
          exact ⟨sb.length - k, k, e, by simp, by simpa [Op.again] using hne⟩
        · intro off cnt o' hm
          refine hc off cnt o' ?_
          simp only [List.mem_append, List.mem_cons, reduceCtorEq, List.not_mem_nil, or_false] at hm ⊢
          exact hm

theorem inv_run {buf : List UInt8} (hbuf : buf.length < 2 ^ 63) (as : List Act) (s : State) (es : List Ev)
    (h : run buf as = some (s, es)) (hcf : Conforms es) : Inv buf s es := by
  simp only [run, Option.map_eq_some_iff] at h
  obtain ⟨⟨p', es'⟩, h1, h2⟩ := h
  simp only [Prod.mk.injEq] at h2
  obtain ⟨rfl, rfl⟩ := h2
  have := runs_hist (step := step) (fun p tr => Conforms tr → Inv buf p tr)
    (fun s a s' es tr hI hs hu => inv_step hbuf
      (hI (fun o c n hm => hu o c n (List.mem_append_left _ hm)))
      (fun o c n hm => hu o c n (List.mem_append_right _ hm)) hs)
    as _ p' es' (enter buf.length).2
    (fun _ => by
      unfold enter
      split
      · rename_i h
        refine ⟨by simp [delivered], by simp [delivered], ?_, by simp, by simp, by simp⟩
        intro k hk
        simp only [Pc.loop.injEq] at hk
        simp [delivered]; omega
      · rename_i h
        refine ⟨by simp [delivered], by simp [delivered], by simp, ?_, by simp, by simp⟩
        intro _
        simp [delivered]; omega) h1
  exact this hcf

/-- **C82, success.** If `read_n` reports success, the buffer holds exactly the bytes the stream delivered during the call, in
order, and as many as the buffer has room for. -/
theorem C82_read_n_success_partial (buf : List UInt8) (hbuf : buf.length < 2 ^ 63) (as : List Act) (s : State) (es : List Ev)
    (h : run buf as = some (s, es)) (hcf : Conforms es) (hp : s.pc = .done true) :
    s.buf = delivered es ∧ (delivered es).length = buf.length := by
  have hI := inv_run hbuf as s es h hcf
  have hl := hI.good hp
  refine ⟨?_, hl⟩
  rw [hI.bytes, hl]
  simp

/-- **C82.** At every moment the buffer starts with the delivered bytes, the rest is untouched, and nothing is requested
beyond its end; an error is reported only if the kernel reported one. -/
theorem C82_read_n_safe (buf : List UInt8) (hbuf : buf.length < 2 ^ 63) (as : List Act) (s : State) (es : List Ev)
    (h : run buf as = some (s, es)) (hcf : Conforms es) :
    s.buf = delivered es ++ buf.drop (delivered es).length ∧ (delivered es).length ≤ buf.length ∧
      (∀ off cnt o, Ev.sys off cnt o ∈ es → off + cnt = buf.length ∧ 0 < cnt) ∧
      (s.pc = .done false → ∃ off cnt e, Ev.sys off cnt (.err e) ∈ es ∧ e ≠ EAGAIN) := by
  have hI := inv_run hbuf as s es h hcf
  exact ⟨hI.bytes, hI.fits, hI.calls, hI.bad⟩

/-- **C82, negation.** Once the peer has closed the connection every further `::read` returns 0 bytes. In whatever state of the
transfer this happens, `read_n` never returns, after any number of such results. -/
theorem C82_eof_never_returns (buf : List UInt8) (hbuf : buf.length < 2 ^ 63) (as : List Act) (s : State) (es : List Ev) (k : Nat)
    (h : run buf as = some (s, es)) (hcf : Conforms es) (hk : s.pc = .loop k) (stales : List Nat) :
    ∃ es', runs step s (stales.map fun e => ⟨.ok [], e⟩) = some (s, es') := by
  have hI := inv_run hbuf as s es h hcf
  have hlen := hI.len
  obtain ⟨h1, h2⟩ := hI.loop k hk
  have one : ∀ e, step s ⟨.ok [], e⟩ = some (s, [.sys (s.buf.length - k) k (.ok [])]) := by
    intro e
    obtain ⟨sb, pc⟩ := s
    simp only at hk
    subst hk
    have hm : (k + 2 ^ 64 - 0) % 2 ^ 64 = k := by
      rw [Nat.sub_zero, Nat.add_mod_right, Nat.mod_eq_of_lt (by omega)]
    have ht : toInt 0 = 0 := by decide
    simp only [step, Out.ret, List.length_nil, ht, Out.fill, store]
    rw [if_neg (by omega), if_neg (by omega)]
    simp only [Int.toNat_zero, hm, enter, if_pos h2]
    simp
  induction stales with
  | nil => exact ⟨[], rfl⟩
  | cons e l ih =>
    obtain ⟨es', h3⟩ := ih
    refine ⟨[.sys (s.buf.length - k) k (.ok [])] ++ es', ?_⟩
    simp [runs, one e, h3]

/-- Four bytes in two parts. -/
example : ∃ s es, run [0, 0, 0, 0] [⟨.ok [1], 0⟩, ⟨.err EAGAIN, 0⟩, ⟨.ok [2, 3, 4], 11⟩] = some (s, es) ∧
    s.pc = .done true ∧ s.buf = [1, 2, 3, 4] := ⟨_, _, rfl, rfl, rfl⟩

/-- The peer closes after one byte: `read_n` is still waiting for three. -/
example : ∃ s es, run [0, 0, 0, 0] [⟨.ok [1], 0⟩, ⟨.ok [], 0⟩, ⟨.ok [], 0⟩] = some (s, es) ∧ s.pc = .loop 3 :=
  ⟨_, _, rfl, rfl⟩

/-- Proof device: one round of the loop, with the new `remain` left abstract. -/
theorem step_loop (m : List UInt8) (sent : Nat) (o : Out) (st : Nat) : ∃ k, step ⟨m, .loop sent⟩ ⟨o, st⟩ = (if o.ret = -1 ∧ Op.again .read (o.errno st) = true then
      some (State.mk (o.fill m (m.length - sent)) (.loop sent), [Ev.sys (m.length - sent) sent o, .yield])
    else if o.ret < 0 then
      some (State.mk (o.fill m (m.length - sent)) (.done false), [Ev.sys (m.length - sent) sent o, .ret false])
    else some (State.mk (o.fill m (m.length - sent)) (enter k).1,
      Ev.sys (m.length - sent) sent o :: (enter k).2)) := by
  exact ⟨_, rfl⟩

/-- What the caller is told is what the theorems above say of `done`: `read_n` has returned `ok` exactly if it is at `done ok`. -/
theorem ret_iff {buf : List UInt8} {as : List Act} {s : State} {es : List Ev} (h : run buf as = some (s, es)) (ok : Bool) :
    Ev.ret ok ∈ es ↔ s.pc = .done ok := by
  have hE : ∀ k, Ev.ret ok ∈ (enter k).2 ↔ (enter k).1 = .done ok := by
    intro k; unfold enter; split <;> simp [eq_comm]
  have key : ∀ (as : List Act) (p p' : State) (es : List Ev), runs step p as = some (p', es) →
      ((Ev.ret ok ∈ es ∨ p.pc = .done ok) ↔ p'.pc = .done ok) := by
    intro as
    induction as with
    | nil => intro p p' es h; cases h; simp
    | cons a as ih =>
      intro p p' es h
      obtain ⟨q, e1, e2, h1, h2, rfl⟩ := runs_cons h
      have hst : p.pc ≠ .done ok ∧ (Ev.ret ok ∈ e1 ↔ q.pc = .done ok) := by
        clear h h2 ih
        obtain ⟨m, pc⟩ := p
        cases pc with
        | done b => simp [step] at h1
        | loop sent =>
          refine ⟨by simp, ?_⟩
          obtain ⟨o, st⟩ := a
          obtain ⟨k, hk⟩ := step_loop m sent o st
          rw [hk] at h1
          clear hk
          split at h1
          · cases h1; simp
          · split at h1
            · cases h1; simp [eq_comm]
            · cases h1
              rw [List.mem_cons, hE]
              simp only [reduceCtorEq, false_or]
      rw [← ih q p' e2 h2, List.mem_append, hst.2]
      constructor
      · rintro ((h | h) | h)
        · exact Or.inr h
        · exact Or.inl h
        · exact absurd h hst.1
      · rintro (h | h)
        · exact Or.inl (Or.inr h)
        · exact Or.inl (Or.inl h)
  simp only [run, Option.map_eq_some_iff] at h
  obtain ⟨⟨q, e⟩, h1, h2⟩ := h
  cases h2
  rw [← key as _ _ _ h1, List.mem_append, hE, or_comm]

/-- An empty buffer is full at once. -/
example : run [] [] = some (⟨[], .done true⟩, [.ret true]) := rfl

end ReadN

/-! ## C83 -/

namespace Connect

/-- `connect` returned `r`. (Concerns co_io.cpp:36-147, co_net.cpp:31-220, co_client.cpp:15-63.) -/
def Returned (s : State) (r : Int) : Prop := s.pc = .done r

/-- Nothing of what makes the function answer wrongly happens: `connect` does not succeed immediately, the handshake does not
fail, `select` does not fail. (Concerns co_io.cpp:36-147, co_net.cpp:31-220, co_client.cpp:15-63.) -/
def Act.fine : Act → Prop
  | .connOk _ => False
  | .handshake e => e = 0
  | .selErr _ => False
  | _ => True

/-- **C83, the part that holds.** If the connection is not established at once, the handshake does not fail and `select` does not
fail, then the result is 0 exactly if the connection was established. -/
theorem C83_connect_partial (as : List Act) (s : State) (es : List Ev) (h : runs step .init as = some (s, es))
    (hf : ∀ a ∈ as, a.fine) (r : Int) (hr : Returned s r) : r = 0 ↔ s.conn = .established := by
  have hI : (s.pc = .start → s.conn = .idle) ∧ (s.pc = .selecting → s.conn = .pending ∨ s.conn = .established) ∧
      (∀ r, s.pc = .done r → (r = 0 ∧ s.conn = .established) ∨ (r = -1 ∧ ∃ e, s.conn = .failed e)) := by
    clear hr
    have key : ∀ as (s0 s : State) es, runs step s0 as = some (s, es) → (∀ a ∈ as, a.fine) →
        ((s0.pc = .start → s0.conn = .idle) ∧ (s0.pc = .selecting → s0.conn = .pending ∨ s0.conn = .established) ∧
          (∀ r, s0.pc = .done r → (r = 0 ∧ s0.conn = .established) ∨ (r = -1 ∧ ∃ e, s0.conn = .failed e))) →
        ((s.pc = .start → s.conn = .idle) ∧ (s.pc = .selecting → s.conn = .pending ∨ s.conn = .established) ∧
          (∀ r, s.pc = .done r → (r = 0 ∧ s.conn = .established) ∨ (r = -1 ∧ ∃ e, s.conn = .failed e))) := by
      intro as
      induction as with
      | nil =>
        intro s0 s es h _ hI
        simp only [runs, Option.some.injEq, Prod.mk.injEq] at h
        exact h.1 ▸ hI
      | cons a as ih =>
        intro s0 s es h hf hI
        obtain ⟨s', e1, e2, h1, h2, rfl⟩ := runs_cons h
        refine ih s' s e2 h2 (fun x hx => hf x (List.mem_cons_of_mem _ hx)) ?_
        have hfa := hf a (List.mem_cons_self ..)
        obtain ⟨hs, hsel, hd⟩ := hI
        cases a with
        | connOk st => exact hfa.elim
        | connErr e =>
          simp only [step] at h1
          split at h1
          · simp only [Option.some.injEq, Prod.mk.injEq] at h1
            obtain ⟨rfl, rfl⟩ := h1
            unfold afterConnect
            by_cases he : e = EINPROGRESS <;> simp [he]
          · simp at h1
        | handshake e =>
          simp only [step] at h1
          split at h1
          · rename_i hp
            simp only [Option.some.injEq, Prod.mk.injEq] at h1
            obtain ⟨rfl, rfl⟩ := h1
            have he : e = 0 := hfa
            simp only [he, if_true]
            refine ⟨fun h => ?_, fun _ => .inr trivial, fun r h => ?_⟩
            · rw [hs h] at hp; simp at hp
            · rcases hd r h with ⟨_, h'⟩ | ⟨_, e', h'⟩ <;> rw [h'] at hp <;> simp at hp
          · simp at h1
        | selErr e => exact hfa.elim
        | selTimeout =>
          simp only [step] at h1
          split at h1
          · simp only [Option.some.injEq, Prod.mk.injEq] at h1
            obtain ⟨rfl, rfl⟩ := h1
            exact ⟨hs, hsel, hd⟩
          · simp at h1
        | selReady =>
          simp only [step] at h1
          split at h1
          · rename_i hp
            simp only [Option.some.injEq, Prod.mk.injEq] at h1
            obtain ⟨rfl, rfl⟩ := h1
            simp only [reduceCtorEq, false_implies, Pc.done.injEq, true_and]
            rintro r rfl
            rcases hsel hp.1 with h' | h'
            · exact absurd h' hp.2
            · exact .inl ⟨rfl, h'⟩
          · simp at h1
    exact key as _ s es h hf (by simp [State.init])
  rcases hI.2.2 r hr with ⟨rfl, h1⟩ | ⟨rfl, e, h1⟩
  · simp [h1]
  · simp [h1]

/-- **C83, the whole truth about -1.** It is returned exactly if `::connect` returned at once (successfully or not) with an
`errno` other than `EINPROGRESS`, or `select` failed. -/
theorem C83_minus_one_cause (as : List Act) (s : State) (es : List Ev) (h : runs step .init as = some (s, es)) :
    (Returned s (-1) ↔ (∃ e, Act.connErr e ∈ as ∧ e ≠ EINPROGRESS) ∨ (∃ e, Act.connOk e ∈ as ∧ e ≠ EINPROGRESS) ∨
      (∃ e, Act.selErr e ∈ as)) ∧ (Returned s 0 ↔ Act.selReady ∈ as) ∧ (∀ r, Returned s r → r = 0 ∨ r = -1) := by
  have key : ∀ as (s0 s : State) es, runs step s0 as = some (s, es) → s0.pc ≠ .done (-1) → s0.pc ≠ .done 0 →
      (∀ r, s0.pc ≠ .done r) →
      (Returned s (-1) ↔ (∃ e, Act.connErr e ∈ as ∧ e ≠ EINPROGRESS) ∨ (∃ e, Act.connOk e ∈ as ∧ e ≠ EINPROGRESS) ∨
        (∃ e, Act.selErr e ∈ as)) ∧ (Returned s 0 ↔ Act.selReady ∈ as) ∧ (∀ r, Returned s r → r = 0 ∨ r = -1) := by
    have fin : ∀ as (s0 s : State) es r, runs step s0 as = some (s, es) → s0.pc = .done r →
        s.pc = .done r ∧ (∀ a ∈ as, ∃ e, a = .handshake e) := by
      intro as
      induction as with
      | nil =>
        intro s0 s es r h hr
        simp only [runs, Option.some.injEq, Prod.mk.injEq] at h
        exact ⟨h.1 ▸ hr, by simp⟩
      | cons a as ih =>
        intro s0 s es r h hr
        obtain ⟨s', e1, e2, h1, h2, rfl⟩ := runs_cons h
        cases a with
        | handshake e =>
          simp only [step] at h1
          split at h1
          · simp only [Option.some.injEq, Prod.mk.injEq] at h1
            obtain ⟨rfl, rfl⟩ := h1
            obtain ⟨h3, h4⟩ := ih _ s e2 r h2 hr
            refine ⟨h3, ?_⟩
            intro a ha
            rcases List.mem_cons.1 ha with rfl | ha
            · exact ⟨e, rfl⟩
            · exact h4 a ha
          · simp at h1
        | _ => simp [step, hr] at h1
    intro as
    induction as with
    | nil =>
      intro s0 s es h _ _ h3
      simp only [runs, Option.some.injEq, Prod.mk.injEq] at h
      obtain ⟨rfl, _⟩ := h
      simp [Returned, h3]
    | cons a as ih =>
      intro s0 s es h hm1 hm0 h3
      obtain ⟨s', e1, e2, h1, h2, rfl⟩ := runs_cons h
      by_cases hd : ∃ r, s'.pc = .done r
      · obtain ⟨r, hd⟩ := hd
        obtain ⟨h4, h5⟩ := fin as s' s e2 r h2 hd
        have hno : ∀ x, x ∈ as → (∀ e, x ≠ .handshake e) → False := by
          intro x hx hh
          obtain ⟨e, he⟩ := h5 x hx
          exact hh e he
        have n1 : ∀ e, Act.connErr e ∉ as := fun e hm => hno _ hm (by simp)
        have n2 : ∀ e, Act.connOk e ∉ as := fun e hm => hno _ hm (by simp)
        have n3 : ∀ e, Act.selErr e ∉ as := fun e hm => hno _ hm (by simp)
        have n4 : Act.selReady ∉ as := fun hm => hno _ hm (by simp)
        cases a with
        | connOk st =>
          simp only [step] at h1
          split at h1
          · simp only [Option.some.injEq, Prod.mk.injEq] at h1
            obtain ⟨rfl, rfl⟩ := h1
            unfold afterConnect at hd
            by_cases he : st = EINPROGRESS
            · simp [he] at hd
            · simp only [he, ne_eq, not_false_eq_true, if_true, Pc.done.injEq] at hd
              subst hd
              simp [Returned, h4, n1, n2, n3, n4, he]
          · simp at h1
        | connErr st =>
          simp only [step] at h1
          split at h1
          · simp only [Option.some.injEq, Prod.mk.injEq] at h1
            obtain ⟨rfl, rfl⟩ := h1
            unfold afterConnect at hd
            by_cases he : st = EINPROGRESS
            · simp [he] at hd
            · simp only [he, ne_eq, not_false_eq_true, if_true, Pc.done.injEq] at hd
              subst hd
              simp [Returned, h4, n1, n2, n3, n4, he]
          · simp at h1
        | handshake e =>
          simp only [step] at h1
          split at h1
          · simp only [Option.some.injEq, Prod.mk.injEq] at h1
            obtain ⟨rfl, rfl⟩ := h1
            exact absurd hd (h3 r)
          · simp at h1
        | selErr e =>
          simp only [step] at h1
          split at h1
          · simp only [Option.some.injEq, Prod.mk.injEq] at h1
            obtain ⟨rfl, rfl⟩ := h1
            simp only [Pc.done.injEq] at hd
            subst hd
            simp [Returned, h4, n1, n2, n3, n4]
          · simp at h1
        | selTimeout =>
          simp only [step] at h1
          split at h1
          · simp only [Option.some.injEq, Prod.mk.injEq] at h1
            obtain ⟨rfl, rfl⟩ := h1
            exact absurd hd (h3 r)
          · simp at h1
        | selReady =>
          simp only [step] at h1
          split at h1
          · simp only [Option.some.injEq, Prod.mk.injEq] at h1
            obtain ⟨rfl, rfl⟩ := h1
            simp only [Pc.done.injEq] at hd
            subst hd
            simp [Returned, h4, n1, n2, n3, n4]
          · simp at h1
      · have hd' : ∀ r, s'.pc ≠ .done r := fun r hr => hd ⟨r, hr⟩
        have := ih s' s e2 h2 (hd' _) (hd' _) hd'
        have hskip : (∀ e, a = .connErr e → e = EINPROGRESS) ∧ (∀ e, a = .connOk e → e = EINPROGRESS) ∧
            (∀ e, a ≠ .selErr e) ∧ a ≠ .selReady := by
          refine ⟨?_, ?_, ?_, ?_⟩
          · rintro e rfl
            simp only [step] at h1
            split at h1
            · simp only [Option.some.injEq, Prod.mk.injEq] at h1
              obtain ⟨rfl, rfl⟩ := h1
              by_cases he : e = EINPROGRESS
              · exact he
              · simp [afterConnect, he] at hd'
            · simp at h1
          · rintro e rfl
            simp only [step] at h1
            split at h1
            · simp only [Option.some.injEq, Prod.mk.injEq] at h1
              obtain ⟨rfl, rfl⟩ := h1
              by_cases he : e = EINPROGRESS
              · exact he
              · simp [afterConnect, he] at hd'
            · simp at h1
          · rintro e rfl
            simp only [step] at h1
            split at h1
            · simp only [Option.some.injEq, Prod.mk.injEq] at h1
              obtain ⟨rfl, rfl⟩ := h1
              simp at hd'
            · simp at h1
          · rintro rfl
            simp only [step] at h1
            split at h1
            · simp only [Option.some.injEq, Prod.mk.injEq] at h1
              obtain ⟨rfl, rfl⟩ := h1
              simp at hd'
            · simp at h1
        obtain ⟨k1, k2, k3, k4⟩ := hskip
        rw [this.1, this.2.1]
        refine ⟨?_, ?_, this.2.2⟩
        · constructor
          · rintro (⟨e, he, hn⟩ | ⟨e, he, hn⟩ | ⟨e, he⟩)
            · exact .inl ⟨e, List.mem_cons_of_mem _ he, hn⟩
            · exact .inr (.inl ⟨e, List.mem_cons_of_mem _ he, hn⟩)
            · exact .inr (.inr ⟨e, List.mem_cons_of_mem _ he⟩)
          · rintro (⟨e, he, hn⟩ | ⟨e, he, hn⟩ | ⟨e, he⟩)
            · rcases List.mem_cons.1 he with he | he
              · exact absurd (k1 e he.symm) hn
              · exact .inl ⟨e, he, hn⟩
            · rcases List.mem_cons.1 he with he | he
              · exact absurd (k2 e he.symm) hn
              · exact .inr (.inl ⟨e, he, hn⟩)
            · rcases List.mem_cons.1 he with he | he
              · exact absurd he.symm (k3 e)
              · exact .inr (.inr ⟨e, he⟩)
        · constructor
          · exact fun h => List.mem_cons_of_mem _ h
          · intro h
            rcases List.mem_cons.1 h with h | h
            · exact absurd h.symm k4
            · exact h
  exact key as _ s es h (by simp [State.init]) (by simp [State.init]) (by simp [State.init])

/-- **C83, negation.** A connection that is established at once is reported as an error, whatever `errno` was before (unless
it happened to be `EINPROGRESS`). -/
theorem C83_immediate_success_is_error (stale : Nat) (h : stale ≠ EINPROGRESS) :
    runs step .init [.connOk stale] = some (⟨.established, .done (-1)⟩, [.ret (-1)]) := by
  simp [runs, step, State.init, afterConnect, h]

/-- **C83, negation.** A connection attempt that is refused (with any error) after `EINPROGRESS` is reported as success. -/
theorem C83_refused_is_success (e : Nat) (h : e ≠ 0) :
    runs step .init [.connErr EINPROGRESS, .selTimeout, .handshake e, .selReady] =
      some (⟨.failed e, .done 0⟩, [.yield, .ret 0]) := by
  simp [runs, step, State.init, afterConnect, h]

/-- **C83, negation.** A signal during `select` makes an attempt that is then established an error. -/
theorem C83_interrupted_is_error :
    runs step .init [.connErr EINPROGRESS, .selErr EINTR, .handshake 0] = some (⟨.established, .done (-1)⟩, [.ret (-1)]) := by
  decide

/-- The ordinary course. -/
example : runs step .init [.connErr EINPROGRESS, .selTimeout, .handshake 0, .selReady] =
    some (⟨.established, .done 0⟩, [.yield, .ret 0]) := by decide

end Connect

end Verif.Io
