import Verif.Base.Lts
import Verif.Io.Io

/-!
# What the errors of a client say (C137)

`co_client::read`, `write`, `read_n`, `write_n` and `close` (co_client.cpp:15-71) call `co_io` and on failure make a `co_error` of a
code and the text `strerror(errno)`, with one more look at `errno` after the one of `co_io` (co_io.cpp:36-91) and after the logging
there. Many coroutines run on many threads; each system call and each look at `errno` is a step. The bytes are C81 and C82, the
decision to try again C114.
-/

namespace Verif.Io.ClientErr
open Verif

/-- The operations (co_client.cpp:15, 25, 40, 50, 65). -/
inductive Kind
  | read
  | write
  | readN
  | writeN
  | close
deriving DecidableEq, Repr

/-- Error codes (co_error.h:14-16). -/
inductive Code
  | readError
  | writeError
  | closeError
deriving DecidableEq, Repr

/-- The code of an operation's error (co_client.cpp:20, 33, 45, 58, 69). -/
def Kind.code : Kind → Code
  | .read => .readError
  | .readN => .readError
  | .write => .writeError
  | .writeN => .writeError
  | .close => .closeError

/-- Does it go on until all bytes are moved (co_client.cpp:28, 53)? -/
def Kind.all : Kind → Bool
  | .readN => true
  | .writeN => true
  | _ => false

/-- Where a coroutine is: outside; before the next system call, `todo` bytes are still to be moved; after it, with the result (`none`
is -1); `co_io` has returned -1 (co_client.cpp:17-20, 30-33, 42-45, 55-58, 67-69). -/
inductive Pc
  | out
  | loop (k : Kind) (todo : Nat)
  | judge (k : Kind) (todo : Nat) (r : Option Nat)
  | report (k : Kind)
deriving DecidableEq, Repr

/-- `cur w`: the coroutine that thread `w` runs. `at_ c`: the thread that runs `c`. `errno w`: of thread `w`. `got c`: the result so
far. (co_client.cpp:27-36, 52-61.) -/
structure St where
  cur : Nat → Option Nat
  at_ : Nat → Option Nat
  errno : Nat → Nat
  pc : Nat → Pc
  got : Nat → Nat

/-- Nobody runs; every `errno` is 0. (Concerns co_client.cpp:15-71, co_io.cpp:36-91.) -/
def St.init : St := ⟨fun _ => none, fun _ => none, fun _ => 0, fun _ => .out, fun _ => 0⟩

/-- `resume w c`: thread `w` takes up `c`. `call`: the coroutine of thread `w` calls an operation with a buffer of `n` bytes. `sys`: its
system call returns. `judge`: `co_io` looks at the result and `errno`. `log w e`: the logging leaves `errno` at `e`. `report`: the
client makes its error. `yield`: it gives up the thread outside of the operations. `preempt`: the signal takes the thread from
it. `user`, `sched`: code outside of the operations and the scheduler leave `errno` at `e`. (Concerns co_client.cpp:15-71, co_io.cpp:36-91.) -/
inductive Act
  | resume (w c : Nat)
  | call (w : Nat) (k : Kind) (n : Nat)
  | sys (w : Nat) (o : Out)
  | judge (w : Nat)
  | log (w e : Nat)
  | report (w : Nat)
  | yield (w : Nat)
  | preempt (w : Nat)
  | user (w e : Nat)
  | sched (w e : Nat)
deriving DecidableEq, Repr

/-- What coroutine `c` does: calls an operation; its system call has outcome `o`; it yields to try again; the operation returns without
error and with `m` bytes moved; it returns an error with code `x` and the text for `errno = e`. (Concerns co_client.cpp:15-71, co_io.cpp:36-91.) -/
inductive Ev
  | call (c : Nat) (k : Kind) (n : Nat)
  | sys (c : Nat) (o : Out)
  | again (c : Nat)
  | ok (c m : Nat)
  | err (c : Nat) (x : Code) (e : Nat)
deriving DecidableEq, Repr

/-- Coroutine `c` leaves thread `w`. (Concerns co_client.cpp:15-71, co_io.cpp:36-91.) -/
def St.leave (s : St) (w c : Nat) : St := { s with cur := upd s.cur w none, at_ := upd s.at_ c none }

/-- One step. The kernel moves at most as many bytes as it is told to; simplified: the conversions of the result to `int` and
`size_t` change nothing (C84: the kernel moves less than 2^31 bytes at once). `close` does not try again (co_io.cpp:36-46). -/
def step (s : St) : Act → Option (St × List Ev)
  | .resume w c =>
    if s.cur w = none ∧ s.at_ c = none then some ({ s with cur := upd s.cur w (some c), at_ := upd s.at_ c (some w) }, []) else none
  | .call w k n => match s.cur w with
    | some c => if s.pc c = .out then some ({ s with pc := upd s.pc c (.loop k n), got := upd s.got c 0 }, [.call c k n]) else none
    | none => none
  | .sys w o => match s.cur w with
    | some c => match s.pc c with
      | .loop k todo => if k.all = true ∧ todo = 0 then none else match o with
        | .ok m => if m ≤ todo then
            some ({ s with pc := upd s.pc c (.judge k (todo - m) (some m)), got := upd s.got c (s.got c + m) }, [.sys c (.ok m)])
          else none
        | .err e => some ({ s with pc := upd s.pc c (.judge k todo none), errno := upd s.errno w e }, [.sys c (.err e)])
      | _ => none
    | none => none
  | .judge w => match s.cur w with
    | some c => match s.pc c with
      -- co_client.cpp:28, 53
      | .loop k todo => if k.all = true ∧ todo = 0 then some ({ s with pc := upd s.pc c .out }, [.ok c (s.got c)]) else none
      -- co_client.cpp:35, 60, or the return
      | .judge k todo (some _) =>
        if k.all then some ({ s with pc := upd s.pc c (.loop k todo) }, [])
        else some ({ s with pc := upd s.pc c .out }, [.ok c (s.got c)])
      -- co_io.cpp:39-43, 54-66, 76-88
      | .judge k todo none =>
        if k ≠ .close ∧ s.errno w = EAGAIN then some ({ s with pc := upd s.pc c (.loop k todo) }.leave w c, [.again c])
        else some ({ s with pc := upd s.pc c (.report k) }, [])
      | _ => none
    | none => none
  | .log w e => match s.cur w with
    | some c => match s.pc c with
      | .report _ => some ({ s with errno := upd s.errno w e }, [])
      | _ => none
    | none => none
  | .report w => match s.cur w with
    | some c => match s.pc c with
      | .report k => some ({ s with pc := upd s.pc c .out }, [.err c k.code (s.errno w)])
      | _ => none
    | none => none
  | .yield w => match s.cur w with
    | some c => if s.pc c = .out then some (s.leave w c, []) else none
    | none => none
  -- co_vos_gcc_x86_64.cpp:137-160
  | .preempt w => match s.cur w with
    | some c => some (s.leave w c, [])
    | none => none
  | .user w e => match s.cur w with
    | some c => if s.pc c = .out then some ({ s with errno := upd s.errno w e }, []) else none
    | none => none
  | .sched w e => if s.cur w = none then some ({ s with errno := upd s.errno w e }, []) else none

/-! ## What is to hold -/

/-- The specification of one coroutine: outside, or in operation `k` on `n` bytes, of which `g` are moved; `l`: the outcome that has
still to be answered. (Concerns co_client.cpp:15-71, co_io.cpp:36-91.) -/
inductive Q
  | out
  | busy (k : Kind) (n g : Nat) (l : Option Out)
deriving DecidableEq, Repr

/-- The operations that move a whole buffer. (Concerns co_client.cpp:15-71, co_io.cpp:36-91.) -/
def whole (k : Kind) : Bool := k == .readN || k == .writeN

/-- The code says what was tried. (Concerns co_client.cpp:15-71, co_io.cpp:36-91.) -/
def names (k : Kind) (x : Code) : Bool :=
  (x == .readError && (k == .read || k == .readN)) || (x == .writeError && (k == .write || k == .writeN)) ||
    (x == .closeError && k == .close)

/-- What coroutine `c` may do, independent of the machine. It makes a system call only when the last one moved bytes and more are wanted
(`read_n`, `write_n`), or at the beginning, or when it has decided to try again. It succeeds only when the last system call did and
it has moved what it says, for `read_n` and `write_n` the whole buffer. It returns an error only when the last system call failed,
with the code of its operation. If `strict`: it tries again only when it would block, the text is for the error of its own last
system call, and that is not "would block" (except for `close`). (Concerns co_client.cpp:15-71, co_io.cpp:36-91.) -/
def spec (strict : Bool) (c : Nat) : Q → Ev → Option Q
  | .out, .call d k n => if d = c then some (.busy k n 0 none) else some .out
  | .busy k n g none, .sys d o => if d = c then
      match o with
      | .ok m => if g + m ≤ n ∧ (whole k = true → g < n) then some (.busy k n (g + m) (some (.ok m))) else none
      | .err e => if whole k = true → g < n then some (.busy k n g (some (.err e))) else none
    else some (.busy k n g none)
  | .busy k n g (some (.ok m)), .sys d o => if d = c then
      match o with
      | .ok m' => if whole k = true ∧ g < n ∧ g + m' ≤ n then some (.busy k n (g + m') (some (.ok m'))) else none
      | .err e => if whole k = true ∧ g < n then some (.busy k n g (some (.err e))) else none
    else some (.busy k n g (some (.ok m)))
  | .busy k n g (some (.err e)), .again d => if d = c then
      (if strict = true → k ≠ .close ∧ e = EAGAIN then some (.busy k n g none) else none)
    else some (.busy k n g (some (.err e)))
  | .busy k n g (some (.err e)), .err d x msg => if d = c then
      (if names k x = true ∧ (strict = true → msg = e ∧ (k = .close ∨ e ≠ EAGAIN)) then some .out else none)
    else some (.busy k n g (some (.err e)))
  | .busy k n g (some (.ok m)), .ok d r => if d = c then
      (if r = g ∧ (whole k = true → g = n) ∧ (whole k = false → r = m) then some .out else none)
    else some (.busy k n g (some (.ok m)))
  | .busy k n g none, .ok d r => if d = c then (if whole k = true ∧ r = g ∧ g = n then some .out else none)
    else some (.busy k n g none)
  | q, .call d _ _ | q, .sys d _ | q, .again d | q, .ok d _ | q, .err d _ _ => if d = c then none else some q

/-- The coroutine an event is of. (Concerns co_client.cpp:15-71, co_io.cpp:36-91.) -/
def Ev.who : Ev → Nat
  | .call c _ _ | .sys c _ | .again c | .ok c _ | .err c _ _ => c

/-- The coroutine of thread `w` is between a failed system call and its last look at `errno` (co_io.cpp:54 to co_client.cpp:20, and the same
in the others). -/
def St.Failing (s : St) (w : Nat) : Prop :=
  ∃ c k, s.cur w = some c ∧ ((∃ n, s.pc c = .judge k n none) ∨ s.pc c = .report k)

/-- No preemption in between, and the logging leaves `errno` alone: along the schedule `as` from `s`. (Concerns co_client.cpp:15-71, co_io.cpp:36-91.) -/
def Calm (s : St) : List Act → Prop
  | [] => True
  | a :: as => (∀ w, a = .preempt w → ¬ s.Failing w) ∧ (∀ w e, a ≠ .log w e) ∧ ∀ s' es, step s a = some (s', es) → Calm s' as

/-! ## Proofs -/

theorem whole_eq (k : Kind) : whole k = k.all := by cases k <;> rfl

theorem names_code (k : Kind) : names k k.code = true := by cases k <;> rfl

theorem spec_other {b : Bool} {c : Nat} {q : Q} {e : Ev} (h : e.who ≠ c) : spec b c q e = some q := by
  cases q with
  | out => cases e <;> simp_all [spec, Ev.who]
  | busy k n g l => rcases l with _ | (_ | _) <;> cases e <;> simp_all [spec, Ev.who]

/-- Proof device: the two maps agree. (Concerns co_client.cpp:15-71, co_io.cpp:36-91.) -/
def Agree (s : St) : Prop := ∀ w c, s.cur w = some c ↔ s.at_ c = some w

/-- Take a step apart. -/
local macro "crunch" hs:ident : tactic => `(tactic| (
  simp only [step] at $hs:ident
  repeat' split at $hs:ident
  all_goals first | (simp only [reduceCtorEq] at $hs:ident; done) | skip
  all_goals simp only [Option.some.injEq, Prod.mk.injEq] at $hs:ident
  all_goals (have e1 := And.left $hs:ident; have e2 := And.right $hs:ident; clear $hs:ident; subst e1; subst e2)))

attribute [local grind =] upd_apply St.leave

theorem agree_step {s s' : St} {a : Act} {es : List Ev} (h : Agree s) (hs : step s a = some (s', es)) : Agree s' := by
  simp only [Agree] at h ⊢
  cases a <;> crunch hs <;> first | exact h | (intro w' c'; simp only [St.leave, upd_apply]; grind)

/-- Proof device: how specification and machine correspond for `c`; `b`: strictly. (Concerns co_client.cpp:15-71, co_io.cpp:36-91.) -/
def Rel (b : Bool) (s : St) (c : Nat) : Q → Prop
  | .out => s.pc c = .out
  | .busy k n g l => s.got c = g ∧ g ≤ n ∧ (match l with
    | none => s.pc c = .loop k (n - g) ∧ (k.all = false → g = 0)
    | some (.ok m) => (k.all = false → g = m) ∧
        (s.pc c = .judge k (n - g) (some m) ∨ (k.all = true ∧ s.pc c = .loop k (n - g)))
    | some (.err e) => (k.all = false → g = 0) ∧ (b = true → ∃ w, s.cur w = some c ∧ s.errno w = e) ∧
        (s.pc c = .judge k (n - g) none ∨ (s.pc c = .report k ∧ (b = true → k = .close ∨ e ≠ EAGAIN))))

/-- Proof device: a step that leaves `c` alone. -/
theorem rel_keep {b : Bool} {s s' : St} {c : Nat} {q : Q} (h : Rel b s c q) (hp : s'.pc c = s.pc c) (hg : s'.got c = s.got c)
    (hk : b = true → ∀ w, s.cur w = some c → (∃ k n, s.pc c = .judge k n none ∨ s.pc c = .report k) →
      s'.cur w = some c ∧ s'.errno w = s.errno w) : Rel b s' c q := by
  cases q with
  | out => simpa [Rel, hp] using h
  | busy k n g l =>
    obtain ⟨h1, h2, h3⟩ := h
    refine ⟨by rw [hg, h1], h2, ?_⟩
    rcases l with _ | (m | e)
    · simpa only [hp] using h3
    · simpa only [hp] using h3
    · obtain ⟨h4, h5, h6⟩ := h3
      refine ⟨h4, fun hb => ?_, by simpa only [hp] using h6⟩
      obtain ⟨w, w1, w2⟩ := h5 hb
      have := hk hb w w1 (h6.elim (fun h6 => ⟨k, _, .inl h6⟩) fun h6 => ⟨k, 0, .inr h6.1⟩)
      exact ⟨w, this.1, by rw [this.2, w2]⟩

/-- One step of the machine is a step, or none, of the specification. -/
theorem rel_step (b : Bool) (c : Nat) {s s' : St} {a : Act} {es : List Ev} {q : Q} (hA : Agree s) (hR : Rel b s c q)
    (hq : b = true → (∀ w, a = .preempt w → ¬ s.Failing w) ∧ ∀ w e, a ≠ .log w e) (hs : step s a = some (s', es)) :
    ∃ q', accepts (spec b c) q es = some q' ∧ Rel b s' c q' := by
  have silent : es = [] → Rel b s' c q → ∃ q', accepts (spec b c) q es = some q' ∧ Rel b s' c q' := by
    rintro rfl h; exact ⟨q, rfl, h⟩
  have others : ∀ e, es = [e] → e.who ≠ c → Rel b s' c q → ∃ q', accepts (spec b c) q es = some q' ∧ Rel b s' c q' := by
    rintro e rfl he h; exact ⟨q, by simp [accepts, spec_other he], h⟩
  have one : ∀ w w', s.cur w = some c → s.cur w' = some c → w = w' := by
    intro w w' h1 h2
    have := (hA w c).1 h1
    have := (hA w' c).1 h2
    simp_all
  simp only [Agree] at hA
  cases a with
  | resume w d =>
    crunch hs
    refine silent rfl (rel_keep hR rfl rfl fun _ w' h1 _ => ⟨?_, rfl⟩)
    simp only [upd_apply]; grind
  | sched w e =>
    crunch hs
    refine silent rfl (rel_keep hR rfl rfl fun _ w' h1 _ => ⟨h1, ?_⟩)
    simp only [upd_apply]; grind
  | yield w =>
    crunch hs
    refine silent rfl (rel_keep hR rfl rfl fun _ w' h1 h2 => ⟨?_, rfl⟩)
    simp only [St.leave, upd_apply]; grind
  | user w e =>
    crunch hs
    refine silent rfl (rel_keep hR rfl rfl fun _ w' h1 h2 => ⟨h1, ?_⟩)
    simp only [upd_apply]; grind
  | preempt w =>
    crunch hs
    refine silent rfl (rel_keep hR rfl rfl fun hb w' h1 h2 => ⟨?_, rfl⟩)
    have := (hq hb).1 w rfl
    simp only [St.Failing] at this
    simp only [St.leave, upd_apply]; grind
  | log w e =>
    crunch hs
    refine silent rfl (rel_keep hR rfl rfl fun hb w' h1 h2 => ?_)
    exact absurd rfl ((hq hb).2 w e)
  | call w k n =>
    crunch hs
    rename_i d hd hpc
    by_cases hdc : d = c
    · subst hdc
      cases q with
      | out => exact ⟨.busy k n 0 none, by simp [accepts, spec], by simp [Rel]⟩
      | busy k' n' g l =>
        obtain ⟨-, -, h3⟩ := hR
        rcases l with _ | (m | e) <;> simp_all
    · refine others _ rfl hdc (rel_keep hR (by simp [Ne.symm hdc]) (by simp [Ne.symm hdc]) fun _ w' h1 _ => ⟨h1, rfl⟩)
  | report w =>
    crunch hs
    rename_i d hd _ k hpc
    by_cases hdc : d = c
    · subst hdc
      cases q with
      | out => simp [Rel, hpc] at hR
      | busy k' n g l =>
        obtain ⟨h1, h2, h3⟩ := hR
        rcases l with _ | (m | e)
        · simp [hpc] at h3
        · simp [hpc] at h3
        · simp only [hpc, reduceCtorEq, Pc.report.injEq, false_or] at h3
          obtain ⟨-, h4, rfl, h5⟩ := h3
          refine ⟨.out, ?_, by simp [Rel]⟩
          have : b = true → s.errno w = e := fun hb => by
            obtain ⟨w', k1, k2⟩ := h4 hb
            rw [one w w' hd k1, k2]
          simp only [accepts, spec, if_true, names_code, true_and]
          rw [if_pos fun hb => ⟨this hb, h5 hb⟩]
          rfl
    · refine others _ rfl hdc (rel_keep hR (by simp [Ne.symm hdc]) rfl fun _ w' h1 _ => ⟨h1, rfl⟩)
  | sys w o =>
    simp only [step] at hs
    split at hs
    case h_2 => cases hs
    rename_i d hd
    split at hs
    case h_2 => cases hs
    rename_i k todo hpc
    split at hs
    · cases hs
    rename_i hall
    cases o with
    | ok m =>
      simp only at hs
      split at hs
      case isFalse => cases hs
      rename_i hm
      simp only [Option.some.injEq, Prod.mk.injEq] at hs
      obtain ⟨rfl, rfl⟩ := hs
      by_cases hdc : d = c
      · subst hdc
        cases q with
        | out => simp [Rel, hpc] at hR
        | busy k' n g l =>
          obtain ⟨h1, h2, h3⟩ := hR
          rcases l with _ | (m' | e)
          · simp only [hpc, Pc.loop.injEq] at h3
            obtain ⟨⟨rfl, rfl⟩, h4⟩ := h3
            have hlt : k.all = true → g < n := fun hk => by have : ¬ n - g = 0 := fun h => hall ⟨hk, h⟩; omega
            refine ⟨.busy k n (g + m) (some (.ok m)), ?_, ?_⟩
            · simp only [accepts, spec, if_true, whole_eq]
              rw [if_pos ⟨by omega, hlt⟩]; rfl
            · refine ⟨by simp [h1], by omega, fun hk => by have := h4 hk; omega, .inl ?_⟩
              simp only [upd_same, Pc.judge.injEq, and_true, true_and]; omega
          · simp only [hpc, reduceCtorEq, Pc.loop.injEq, false_or] at h3
            obtain ⟨h4, h5, rfl, rfl⟩ := h3
            have hlt : g < n := by have : ¬ n - g = 0 := fun h => hall ⟨h5, h⟩; omega
            refine ⟨.busy k n (g + m) (some (.ok m)), ?_, ?_⟩
            · simp only [accepts, spec, if_true, whole_eq]
              rw [if_pos ⟨h5, hlt, by omega⟩]; rfl
            · refine ⟨by simp [h1], by omega, fun hk => by simp [h5] at hk, .inl ?_⟩
              simp only [upd_same, Pc.judge.injEq, and_true, true_and]; omega
          · simp [hpc] at h3
      · refine others _ rfl hdc (rel_keep hR (by simp [Ne.symm hdc]) (by simp [Ne.symm hdc]) fun _ w' h1 _ => ⟨h1, rfl⟩)
    | err e =>
      simp only [Option.some.injEq, Prod.mk.injEq] at hs
      obtain ⟨rfl, rfl⟩ := hs
      by_cases hdc : d = c
      · subst hdc
        cases q with
        | out => simp [Rel, hpc] at hR
        | busy k' n g l =>
          obtain ⟨h1, h2, h3⟩ := hR
          rcases l with _ | (m' | e')
          · simp only [hpc, Pc.loop.injEq] at h3
            obtain ⟨⟨rfl, rfl⟩, h4⟩ := h3
            have hlt : k.all = true → g < n := fun hk => by have : ¬ n - g = 0 := fun h => hall ⟨hk, h⟩; omega
            refine ⟨.busy k n g (some (.err e)), ?_, h1, h2, h4, fun _ => ⟨w, hd, by simp⟩, .inl (by simp)⟩
            simp only [accepts, spec, if_true, whole_eq]
            rw [if_pos hlt]; rfl
          · simp only [hpc, reduceCtorEq, Pc.loop.injEq, false_or] at h3
            obtain ⟨h4, h5, rfl, rfl⟩ := h3
            have hlt : g < n := by have : ¬ n - g = 0 := fun h => hall ⟨h5, h⟩; omega
            refine ⟨.busy k n g (some (.err e)), ?_, h1, h2, fun hk => by simp [h5] at hk, fun _ => ⟨w, hd, by simp⟩, .inl (by simp)⟩
            simp only [accepts, spec, if_true, whole_eq]
            rw [if_pos ⟨h5, hlt⟩]; rfl
          · simp [hpc] at h3
      · refine others _ rfl hdc (rel_keep hR (by simp [Ne.symm hdc]) rfl fun _ w' h1 _ => ⟨h1, ?_⟩)
        simp only [upd_apply]; grind
  | judge w =>
    simp only [step] at hs
    split at hs
    case h_2 => cases hs
    rename_i d hd
    split at hs
    · -- the loop is over
      rename_i k todo hpc
      split at hs
      case isFalse => cases hs
      rename_i hall
      simp only [Option.some.injEq, Prod.mk.injEq] at hs
      obtain ⟨rfl, rfl⟩ := hs
      by_cases hdc : d = c
      · subst hdc
        cases q with
        | out => simp [Rel, hpc] at hR
        | busy k' n g l =>
          obtain ⟨h1, h2, h3⟩ := hR
          rcases l with _ | (m' | e)
          · simp only [hpc, Pc.loop.injEq] at h3
            obtain ⟨⟨rfl, rfl⟩, h4⟩ := h3
            exact ⟨.out, by simp [accepts, spec, whole_eq, h1, hall.1]; omega, by simp [Rel]⟩
          · simp only [hpc, reduceCtorEq, Pc.loop.injEq, false_or] at h3
            obtain ⟨h4, h5, rfl, rfl⟩ := h3
            exact ⟨.out, by simp [accepts, spec, whole_eq, h1, h5]; omega, by simp [Rel]⟩
          · simp [hpc] at h3
      · refine others _ rfl hdc (rel_keep hR (by simp [Ne.symm hdc]) rfl fun _ w' h1 _ => ⟨h1, rfl⟩)
    · -- bytes were moved
      rename_i k todo m hpc
      split at hs
      all_goals
        rename_i hk
        simp only [Option.some.injEq, Prod.mk.injEq] at hs
        obtain ⟨rfl, rfl⟩ := hs
      · by_cases hdc : d = c
        · subst hdc
          cases q with
          | out => simp [Rel, hpc] at hR
          | busy k' n g l =>
            obtain ⟨h1, h2, h3⟩ := hR
            rcases l with _ | (m' | e)
            · simp [hpc] at h3
            · simp only [hpc, reduceCtorEq, Pc.judge.injEq, Option.some.injEq, and_false, or_false] at h3
              obtain ⟨h4, rfl, rfl, rfl⟩ := h3
              exact silent rfl ⟨h1, h2, h4, .inr ⟨hk, by simp⟩⟩
            · simp [hpc] at h3
        · exact silent rfl (rel_keep hR (by simp [Ne.symm hdc]) rfl fun _ w' h1 _ => ⟨h1, rfl⟩)
      · by_cases hdc : d = c
        · subst hdc
          cases q with
          | out => simp [Rel, hpc] at hR
          | busy k' n g l =>
            obtain ⟨h1, h2, h3⟩ := hR
            rcases l with _ | (m' | e)
            · simp [hpc] at h3
            · simp only [hpc, reduceCtorEq, Pc.judge.injEq, Option.some.injEq, and_false, or_false] at h3
              obtain ⟨h4, rfl, rfl, rfl⟩ := h3
              simp only [Bool.not_eq_true] at hk
              exact ⟨.out, by simp [accepts, spec, whole_eq, h1, hk, h4 hk], by simp [Rel]⟩
            · simp [hpc] at h3
        · refine others _ rfl hdc (rel_keep hR (by simp [Ne.symm hdc]) rfl fun _ w' h1 _ => ⟨h1, rfl⟩)
    · -- it failed
      rename_i k todo hpc
      split at hs
      all_goals
        rename_i hk
        simp only [Option.some.injEq, Prod.mk.injEq] at hs
        obtain ⟨rfl, rfl⟩ := hs
      · by_cases hdc : d = c
        · subst hdc
          cases q with
          | out => simp [Rel, hpc] at hR
          | busy k' n g l =>
            obtain ⟨h1, h2, h3⟩ := hR
            rcases l with _ | (m' | e)
            · simp [hpc] at h3
            · simp [hpc] at h3
            · simp only [hpc, reduceCtorEq, Pc.judge.injEq, and_true, false_and, or_false] at h3
              obtain ⟨h4, h5, rfl, rfl⟩ := h3
              refine ⟨.busy k n g none, ?_, h1, h2, by simp [St.leave], h4⟩
              have : b = true → k ≠ .close ∧ e = EAGAIN := fun hb => by
                obtain ⟨w', k1, k2⟩ := h5 hb
                rw [← one w w' hd k1] at k2
                exact ⟨hk.1, by rw [← k2]; exact hk.2⟩
              simp only [accepts, spec, if_true]
              rw [if_pos this]; rfl
        · refine others _ rfl hdc (rel_keep hR (by simp [St.leave, Ne.symm hdc]) rfl fun _ w' h1 _ => ⟨?_, rfl⟩)
          simp only [St.leave, upd_apply]; grind
      · by_cases hdc : d = c
        · subst hdc
          cases q with
          | out => simp [Rel, hpc] at hR
          | busy k' n g l =>
            obtain ⟨h1, h2, h3⟩ := hR
            rcases l with _ | (m' | e)
            · simp [hpc] at h3
            · simp [hpc] at h3
            · simp only [hpc, reduceCtorEq, Pc.judge.injEq, and_true, false_and, or_false] at h3
              obtain ⟨h4, h5, rfl, rfl⟩ := h3
              refine silent rfl ⟨h1, h2, h4, h5, .inr ⟨by simp, fun hb => ?_⟩⟩
              obtain ⟨w', k1, k2⟩ := h5 hb
              rw [← one w w' hd k1] at k2
              by_cases hc : k = .close
              · exact .inl hc
              · exact .inr fun he => hk ⟨hc, by rw [k2, he]⟩
        · exact silent rfl (rel_keep hR (by simp [Ne.symm hdc]) rfl fun _ w' h1 _ => ⟨h1, rfl⟩)
    · cases hs

theorem rel_runs (b : Bool) (c : Nat) (as : List Act) : ∀ (s s' : St) (tr : List Ev) (q : Q), Agree s → Rel b s c q →
    (b = true → Calm s as) → runs step s as = some (s', tr) → ∃ q', accepts (spec b c) q tr = some q' := by
  induction as with
  | nil => intro s s' tr q _ _ _ h; simp only [runs, Option.some.injEq, Prod.mk.injEq] at h; exact ⟨q, by rw [← h.2]; rfl⟩
  | cons a as ih =>
    intro s s' tr q hA hR hC h
    obtain ⟨s1, e1, e2, h1, h2, rfl⟩ := runs_cons h
    obtain ⟨q1, k1, k2⟩ := rel_step b c hA hR (fun hb => ⟨(hC hb).1, (hC hb).2.1⟩) h1
    obtain ⟨q2, k3⟩ := ih s1 s' e2 q1 (agree_step hA h1) k2 (fun hb => (hC hb).2.2 s1 e1 h1) h2
    exact ⟨q2, by rw [accepts_append, k1]; exact k3⟩

/-- **C137.** However the coroutines are scheduled, preempted and moved: an operation of a client returns an error only if its last system
call failed, with the code of that operation; it returns without error only if its last system call did not fail, with the number of
bytes that were moved, which for `read_n` and `write_n` is the whole buffer. -/
theorem C137_error_iff_failed (as : List Act) (s : St) (tr : List Ev) (h : runs step St.init as = some (s, tr)) (c : Nat) :
    accepts (spec false c) .out tr ≠ none := by
  obtain ⟨q, hq⟩ := rel_runs false c as St.init s tr .out (by simp [Agree, St.init]) rfl (by simp) h
  simp [hq]

/-- **C137, the text, as far as it goes.** If no preemption falls between a failed system call and the return, and the logging leaves
`errno` alone, then the text is that of the operation's own last error, and this is not "would block". What is missing is false:
`C137_wrong_text`, `C137_log_text`. -/
theorem C137_text_partial (as : List Act) (s : St) (tr : List Ev) (h : runs step St.init as = some (s, tr)) (hc : Calm St.init as)
    (c : Nat) : accepts (spec true c) .out tr ≠ none := by
  obtain ⟨q, hq⟩ := rel_runs true c as St.init s tr .out (by simp [Agree, St.init]) rfl (fun _ => hc) h
  simp [hq]

/-- Without preemption and with logging that keeps `errno`, every schedule is calm. -/
theorem calm_of_none (as : List Act) (h1 : ∀ w, Act.preempt w ∉ as) (h2 : ∀ w e, Act.log w e ∉ as) (s : St) : Calm s as := by
  induction as generalizing s with
  | nil => trivial
  | cons a as ih =>
    refine ⟨fun w hw => absurd (by simp [hw]) (h1 w), fun w e hw => absurd (by simp [hw]) (h2 w e), fun s' es _ => ?_⟩
    exact ih (fun w hw => h1 w (List.mem_cons_of_mem _ hw)) (fun w e hw => h2 w e (List.mem_cons_of_mem _ hw)) s'

/-- A calm schedule with a preemption, in which an operation fails: coroutine 0 is preempted before its system call, coroutine 1 fails. -/
example : Calm St.init [.resume 0 0, .call 0 .read 9, .preempt 0, .resume 0 1, .call 0 .close 0, .sys 0 (.err 5), .judge 0, .report 0,
    .yield 0, .resume 0 0, .sys 0 (.err 9), .judge 0, .report 0] := by
  refine ⟨by simp, by simp, fun s1 e1 h1 => ⟨by simp, by simp, fun s2 e2 h2 => ⟨?_, by simp, fun s3 e3 _ => calm_of_none _ ?_ ?_ s3⟩⟩⟩
  · simp [step, St.init] at h1
    obtain ⟨rfl, -⟩ := h1
    simp [step] at h2
    obtain ⟨rfl, -⟩ := h2
    simp [St.Failing]
  · simp
  · simp

/-- Coroutine 0 fails with `e`, and is preempted before the client looks at `errno`; coroutine 1 fails with `e'` on the same thread. (Concerns co_client.cpp:15-71, co_io.cpp:36-91.) -/
def crossed (e e' : Nat) : List Act :=
  [.resume 0 1, .call 0 .write 5, .preempt 0, .resume 0 0, .call 0 .read 9, .sys 0 (.err e), .judge 0, .preempt 0, .resume 0 1,
    .sys 0 (.err e'), .preempt 0, .resume 0 0, .report 0]

/-- **C137, negation.** The text can be that of any error of another coroutine. -/
theorem C137_wrong_text (e e' : Nat) (he : e ≠ EAGAIN) (hne : e ≠ e') :
    ∃ s tr, runs step St.init (crossed e e') = some (s, tr) ∧ Ev.sys 0 (.err e) ∈ tr ∧ Ev.err 0 .readError e' ∈ tr ∧
      accepts (spec false 0) .out tr ≠ none ∧ accepts (spec true 0) .out tr = none := by
  have h : ∃ s, runs step St.init (crossed e e') = some (s, [.call 1 .write 5, .call 0 .read 9, .sys 0 (.err e), .sys 1 (.err e'),
      .err 0 .readError e']) := by
    simp [crossed, runs, step, St.init, St.leave, Kind.all, Kind.code, he]
  obtain ⟨s, h⟩ := h
  refine ⟨s, _, h, by simp, by simp, ?_, ?_⟩
  · simp [accepts, spec, whole, names]
  · simp [accepts, spec, whole, names, Ne.symm hne]

/-- **C137, negation.** So it is when the logging changes `errno`. -/
theorem C137_log_text (e e' : Nat) (he : e ≠ EAGAIN) :
    ∃ s, runs step St.init [.resume 0 0, .call 0 .readN 9, .sys 0 (.ok 4), .judge 0, .sys 0 (.err e), .judge 0, .log 0 e', .report 0] =
      some (s, [.call 0 .readN 9, .sys 0 (.ok 4), .sys 0 (.err e), .err 0 .readError e']) := by
  simp [runs, step, St.init, Kind.all, Kind.code, he]

/-- Two clients on two threads: one would block, goes on on the other thread, moves 4 and 5 bytes; the other fails with `EBADF` (9) and
then its `close` fails too. -/
example : (runs step St.init [.resume 0 0, .call 0 .readN 9, .sys 0 (.err EAGAIN), .judge 0, .resume 1 0, .resume 0 1, .call 0 .write 3,
    .sys 1 (.ok 4), .sys 0 (.err 9), .judge 1, .judge 0, .preempt 1, .sched 1 5, .resume 1 0, .sys 1 (.ok 5), .judge 1, .report 0, .judge 1,
    .call 0 .close 0, .sys 0 (.err 9), .judge 0, .report 0]).map (·.2) =
  some [.call 0 .readN 9, .sys 0 (.err EAGAIN), .again 0, .call 1 .write 3, .sys 0 (.ok 4), .sys 1 (.err 9), .sys 0 (.ok 5),
    .err 1 .writeError 9, .ok 0 9, .call 1 .close 0, .sys 1 (.err 9), .err 1 .closeError 9] := by rfl

/-- The specification rejects an error without a failed call, a wrong code, a wrong count and a short `read_n`. -/
example : accepts (spec false 0) .out [.call 0 .read 9, .sys 0 (.ok 4), .err 0 .readError 9] = none ∧
    accepts (spec false 0) .out [.call 0 .write 9, .sys 0 (.err 9), .err 0 .readError 9] = none ∧
    accepts (spec false 0) .out [.call 0 .read 9, .sys 0 (.ok 4), .ok 0 9] = none ∧
    accepts (spec false 0) .out [.call 0 .readN 9, .sys 0 (.ok 4), .ok 0 4] = none ∧
    accepts (spec false 0) .out [.call 0 .readN 9, .sys 0 (.err 9), .ok 0 0] = none := by decide

end Verif.Io.ClientErr
