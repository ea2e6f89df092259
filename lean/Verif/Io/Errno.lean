import Verif.Io.IoProps

/-! # C114: an input/output call judges by its own error code

The wrappers of co_io.cpp and co_net.cpp make a system call and then look at `errno`, which belongs to the thread. Nothing keeps the
coroutine from being preempted in between (there is no `CoPreemptGuard` in these functions), and a coroutine may be continued by another
thread. Here many coroutines run on many threads; system call and look at `errno` are two steps. -/

namespace Verif.Io.Errno

/-- Where a coroutine is: outside of the wrappers; before the system call; after it, with `ret` (co_io.cpp:51-54, 73-76; co_net.cpp:35-38,
106-110, 131-135, 151-155, 186-189, 205-208). -/
inductive Pc
  | out
  | loop (op : Op)
  | judge (op : Op) (r : Int)
  deriving DecidableEq, Repr

/-- `cur w`: the coroutine that thread `w` runs. `at_ c`: the thread that runs `c`. `errno w`: of thread `w`. (threads and coroutines between co_io.cpp:51 and co_net.cpp:219.) -/
structure St where
  cur : Nat → Option Nat
  at_ : Nat → Option Nat
  errno : Nat → Nat
  pc : Nat → Pc

/-- Nobody runs; every `errno` is 0. (Concerns co_net.cpp:35-219, co_io.cpp:51-89.) -/
def St.init : St := ⟨fun _ => none, fun _ => none, fun _ => 0, fun _ => .out⟩

/-- `resume w c`: thread `w` takes up `c`. `call`, `sys`, `judge`: the coroutine of thread `w` calls a wrapper; its system call returns;
it looks at `ret` and `errno`. `yield`: it gives up the thread outside of the wrappers. `preempt`: the signal takes the thread
from it. `user w e`: its code outside of the wrappers leaves `errno` at `e`. `sched w e`: the scheduler does. (Concerns co_net.cpp:35-219, co_io.cpp:51-89.) -/
inductive Act
  | resume (w c : Nat)
  | call (w : Nat) (op : Op)
  | sys (w : Nat) (o : Out)
  | judge (w : Nat)
  | yield (w : Nat)
  | preempt (w : Nat)
  | user (w e : Nat)
  | sched (w e : Nat)
  deriving DecidableEq, Repr

/-- What coroutine `c` does: it calls a wrapper; its system call has outcome `o`; the wrapper yields to try again; it returns `r` and
`errno` shows `e`. (Concerns co_net.cpp:35-219, co_io.cpp:51-89.) -/
inductive Ev
  | call (c : Nat) (op : Op)
  | sys (c : Nat) (o : Out)
  | again (c : Nat)
  | ret (c : Nat) (r : Int) (e : Nat)
  deriving DecidableEq, Repr

/-- Coroutine `c` leaves thread `w`. (Concerns co_net.cpp:35-219, co_io.cpp:51-89.) -/
def St.leave (s : St) (w c : Nat) : St := { s with cur := upd s.cur w none, at_ := upd s.at_ c none }

/-- One step. `sendto` makes one call and looks at nothing (co_net.cpp:124-127): its `Op.again` is never true. Which thread takes up
which coroutine is free: a bound coroutine or one with a shared stack has fewer possibilities. Simplification: logging does not change
`errno`. -/
def step (s : St) : Act → Option (St × List Ev)
  | .resume w c =>
    if s.cur w = none ∧ s.at_ c = none then some ({ s with cur := upd s.cur w (some c), at_ := upd s.at_ c (some w) }, []) else none
  | .call w op =>
    match s.cur w with
    | some c => if s.pc c = .out then some ({ s with pc := upd s.pc c (.loop op) }, [.call c op]) else none
    | none => none
  | .sys w o =>
    match s.cur w with
    | some c =>
      match s.pc c with
      | .loop op => some ({ s with pc := upd s.pc c (.judge op o.ret), errno := upd s.errno w (o.errno (s.errno w)) }, [.sys c o])
      | _ => none
    | none => none
  -- co_io.cpp:54-67, 76-89; co_net.cpp:38-49, 110-121, 135-146, 155-166, 189-200, 208-219
  | .judge w =>
    match s.cur w with
    | some c =>
      match s.pc c with
      | .judge op r =>
        if r = -1 ∧ op.again (s.errno w) = true then some ({ s with pc := upd s.pc c (.loop op) }.leave w c, [.again c])
        else some ({ s with pc := upd s.pc c .out }, [.ret c r (s.errno w)])
      | _ => none
    | none => none
  | .yield w =>
    match s.cur w with
    | some c => if s.pc c = .out then some (s.leave w c, []) else none
    | none => none
  -- co_vos_gcc_x86_64.cpp:137-160
  | .preempt w =>
    match s.cur w with
    | some c => some (s.leave w c, [])
    | none => none
  | .user w e =>
    match s.cur w with
    | some c => if s.pc c = .out then some ({ s with errno := upd s.errno w e }, []) else none
    | none => none
  | .sched w e => if s.cur w = none then some ({ s with errno := upd s.errno w e }, []) else none

/-- The coroutine of thread `w` is between a failed system call and its look at `errno`. (Concerns co_net.cpp:35-219, co_io.cpp:51-89.) -/
def St.Judging (s : St) (w : Nat) : Prop := ∃ c op, s.cur w = some c ∧ s.pc c = .judge op (-1)

/-- No preemption of the schedule `as` from `s` falls between a failed system call and the look at `errno`. (Concerns co_net.cpp:35-219, co_io.cpp:51-89.) -/
def Calm (s : St) (as : List Act) : Prop :=
  ∀ as1 w as2 s1 tr, as = as1 ++ .preempt w :: as2 → runs step s as1 = some (s1, tr) → ¬ s1.Judging w

/-! ## What is to hold -/

/-- The states of the specification of one coroutine: outside; trying; the kernel answered `o`. `k`: the class of the call, if it is to
skip anything. (Concerns co_net.cpp:35-219, co_io.cpp:51-89.) -/
inductive Q
  | out
  | trying (k : Option Bool)
  | got (k : Option Bool) (o : Out)

/-- The outcomes after which a call of class `k` tries again: `Skips` for `read`, `write` (`some false`) and the calls on sockets
(`some true`), none for `sendto`. (Concerns co_net.cpp:35-219, co_io.cpp:51-89.) -/
def Retries (k : Option Bool) (o : Out) : Prop := ∃ b, k = some b ∧ Skips b o

open Classical in
/-- The events of coroutine `c` in the order the property allows: after an outcome that is to be skipped it tries again, after any other
it returns just that. No counterpart in the code. (Concerns co_net.cpp:35-219, co_io.cpp:51-89.) -/
noncomputable def spec (c : Nat) : Q → Ev → Option Q
  | .out, .call d op => if d = c then some (.trying op.socket) else some .out
  | .trying k, .sys d o => if d = c then some (.got k o) else some (.trying k)
  | .got k o, .again d => if d = c then (if Retries k o then some (.trying k) else none) else some (.got k o)
  | .got k o, .ret d r e => if d = c then (if ¬ Retries k o ∧ Reports o r e then some .out else none) else some (.got k o)
  | q, .call d _ | q, .sys d _ | q, .again d | q, .ret d _ _ => if d = c then none else some q

/-- The coroutine that an event is of. (Concerns co_net.cpp:35-219, co_io.cpp:51-89.) -/
def Ev.who : Ev → Nat
  | .call c _ | .sys c _ | .again c | .ret c _ _ => c

theorem spec_other {c : Nat} {q : Q} {e : Ev} (h : e.who ≠ c) : spec c q e = some q := by
  cases q <;> cases e <;> simp_all [spec, Ev.who]

theorem retries_iff (op : Op) (o : Out) (st : Nat) (hn : ∀ n, o = .ok n → n ≤ maxRw) :
    (o.ret = -1 ∧ op.again (o.errno st) = true) ↔ Retries op.socket o := by
  cases hb : op.socket with
  | none => cases op <;> simp [Op.socket] at hb; simp [Op.again, Retries]
  | some b => simpa [Retries] using step_skip hb ⟨o, st⟩ hn

/-- Proof device: the two maps agree. (Concerns co_net.cpp:35-219, co_io.cpp:51-89.) -/
def Agree (s : St) : Prop := ∀ w c, s.cur w = some c ↔ s.at_ c = some w

theorem agree_init : Agree St.init := by simp [Agree, St.init]

theorem agree_leave {s : St} (h : Agree s) {w c : Nat} (hc : s.cur w = some c) : Agree (s.leave w c) := by
  intro w' c'
  have h1 := (h w c).1 hc
  have h2 := h w' c'
  have h3 := h w c'
  have h4 := h w' c
  simp only [St.leave, upd_apply]
  by_cases hw : w' = w <;> by_cases hd : c' = c <;> simp_all
  all_goals grind

theorem agree_step {s : St} (h : Agree s) (a : Act) (s' : St) (es : List Ev) (hs : step s a = some (s', es)) : Agree s' := by
  cases a with
  | resume w c =>
    simp only [step] at hs
    split at hs
    · rename_i hc
      cases hs
      intro w' c'
      have h2 := h w' c'
      have h3 := h w c'
      have h4 := h w' c
      simp only [upd_apply]
      by_cases hw : w' = w <;> by_cases hd : c' = c <;> simp_all
      all_goals grind
    · cases hs
  | judge w =>
    simp only [step] at hs
    repeat' split at hs
    all_goals first | cases hs | skip
    · rename_i c hc _ _ _ _ _
      exact agree_leave (s := { s with pc := _ }) h hc
    · exact h
  | _ =>
    simp only [step] at hs
    repeat' split at hs
    all_goals first | cases hs | skip
    all_goals first | exact h | (rename_i c hc _; exact agree_leave h hc) | (rename_i c hc; exact agree_leave h hc)

/-- Proof device: how specification and machine correspond for `c`. (Concerns co_net.cpp:35-219, co_io.cpp:51-89.) -/
def Rel (s : St) (c : Nat) : Q → Prop
  | .out => s.pc c = .out
  | .trying k => ∃ op, s.pc c = .loop op ∧ op.socket = k
  | .got k o => ∃ op, s.pc c = .judge op o.ret ∧ op.socket = k ∧ (∀ n, o = .ok n → n ≤ maxRw) ∧
      (∀ e, o = .err e → ∃ w, s.cur w = some c ∧ s.errno w = e)

/-- Proof device: a step that leaves `c` alone. -/
theorem rel_keep {s s' : St} {c : Nat} {q : Q} (h : Rel s c q) (hp : s'.pc c = s.pc c)
    (hk : ∀ w op, s.cur w = some c → s.pc c = .judge op (-1) → s'.cur w = some c ∧ s'.errno w = s.errno w) : Rel s' c q := by
  cases q with
  | out => simpa [Rel, hp] using h
  | trying k => simpa [Rel, hp] using h
  | got k o =>
    obtain ⟨op, h1, h2, h3, h4⟩ := h
    refine ⟨op, by rw [hp, h1], h2, h3, fun e he => ?_⟩
    obtain ⟨w, hw, hr⟩ := h4 e he
    subst he
    obtain ⟨k1, k2⟩ := hk w op hw h1
    exact ⟨w, k1, by rw [k2, hr]⟩

theorem step_spec (c : Nat) {s : St} (hA : Agree s) (a : Act) (s' : St) (es : List Ev) (q : Q) (hR : Rel s c q)
    (hp : ∀ w, a = .preempt w → ¬ s.Judging w) (hn : ∀ w n, a = .sys w (.ok n) → n ≤ maxRw) (hs : step s a = some (s', es)) :
    ∃ q', accepts (spec c) q es = some q' ∧ Rel s' c q' := by
  have one : ∀ w w', s.cur w = some c → s.cur w' = some c → w = w' := by
    intro w w' h1 h2
    have := (hA w c).1 h1
    have := (hA w' c).1 h2
    simp_all
  have silent : es = [] → Rel s' c q → ∃ q', accepts (spec c) q es = some q' ∧ Rel s' c q' := by
    rintro rfl h; exact ⟨q, rfl, h⟩
  have others : ∀ e, es = [e] → e.who ≠ c → Rel s' c q → ∃ q', accepts (spec c) q es = some q' ∧ Rel s' c q' := by
    rintro e rfl he h; exact ⟨q, by simp [accepts, spec_other he], h⟩
  cases a with
  | resume w d =>
    simp only [step] at hs
    split at hs <;> cases hs
    rename_i hc
    refine silent rfl (rel_keep hR rfl fun w' op h1 _ => ⟨?_, rfl⟩)
    have : w' ≠ w := by rintro rfl; simp [hc.1] at h1
    simp [this, h1]
  | call w op =>
    simp only [step] at hs
    repeat' split at hs
    all_goals first | cases hs | skip
    rename_i d hd hpc
    by_cases hdc : d = c
    · subst hdc
      cases q with
      | out => exact ⟨.trying op.socket, by simp [accepts, spec], op, by simp, rfl⟩
      | trying k => obtain ⟨op', h1, _⟩ := hR; simp [hpc] at h1
      | got k o => obtain ⟨op', h1, _⟩ := hR; simp [hpc] at h1
    · exact others _ rfl hdc (rel_keep hR (by simp [Ne.symm hdc]) fun w' op h1 _ => ⟨h1, rfl⟩)
  | sys w o =>
    simp only [step] at hs
    repeat' split at hs
    all_goals first | cases hs | skip
    rename_i d hd _ op hpc
    by_cases hdc : d = c
    · subst hdc
      cases q with
      | out => simp [Rel, hpc] at hR
      | trying k =>
        obtain ⟨op', h1, h2⟩ := hR
        obtain rfl : op' = op := by rw [hpc] at h1; cases h1; rfl
        refine ⟨.got k o, by simp [accepts, spec], op', by simp, h2, fun n hno => hn w n (by rw [hno]), fun e he => ⟨w, hd, ?_⟩⟩
        subst he; simp [Out.errno]
      | got k o => obtain ⟨op', h1, _⟩ := hR; simp [hpc] at h1
    · refine others _ rfl hdc (rel_keep hR (by simp [Ne.symm hdc]) fun w' op h1 _ => ⟨h1, ?_⟩)
      have : w' ≠ w := by rintro rfl; rw [hd] at h1; cases h1; exact hdc rfl
      simp [this]
  | judge w =>
    simp only [step] at hs
    split at hs
    · rename_i d hd
      split at hs
      · rename_i op r hpc
        by_cases hdc : d = c
        · subst hdc
          cases q with
          | out => simp [Rel, hpc] at hR
          | trying k => obtain ⟨op', h1, _⟩ := hR; simp [hpc] at h1
          | got k o =>
            obtain ⟨op', h1, h2, h3, h4⟩ := hR
            rw [hpc] at h1
            cases h1
            have he : s.errno w = o.errno (s.errno w) := by
              cases o with
              | ok n => rfl
              | err e =>
                obtain ⟨w', hw, hr⟩ := h4 e rfl
                rw [one w w' hd hw, hr]; rfl
            have hr := retries_iff op o (s.errno w) h3
            rw [← he, h2] at hr
            have hrep := step_report ⟨o, s.errno w⟩ h3
            simp only [← he] at hrep
            split at hs <;> cases hs
            · rename_i hc
              exact ⟨.trying k, by simp [accepts, spec, hr.1 hc], op, by simp [St.leave], h2⟩
            · rename_i hc
              exact ⟨.out, by simp [accepts, spec, hrep]; exact fun hx => hc (hr.2 hx), by simp [Rel]⟩
        · split at hs <;> cases hs
          · refine others _ rfl hdc (rel_keep hR (by simp [St.leave, Ne.symm hdc]) fun w' op h1 _ => ⟨?_, rfl⟩)
            have : w' ≠ w := by rintro rfl; rw [hd] at h1; cases h1; exact hdc rfl
            simp [St.leave, this, h1]
          · exact others _ rfl hdc (rel_keep hR (by simp [Ne.symm hdc]) fun w' op h1 _ => ⟨h1, rfl⟩)
      · cases hs
    · cases hs
  | yield w =>
    simp only [step] at hs
    repeat' split at hs
    all_goals first | cases hs | skip
    rename_i d hd hpc
    refine silent rfl (rel_keep hR rfl fun w' op h1 h2 => ⟨?_, rfl⟩)
    have : w' ≠ w := by rintro rfl; rw [hd] at h1; cases h1; simp [hpc] at h2
    simp [St.leave, this, h1]
  | preempt w =>
    simp only [step] at hs
    repeat' split at hs
    all_goals first | cases hs | skip
    rename_i d hd
    refine silent rfl (rel_keep hR rfl fun w' op h1 h2 => ⟨?_, rfl⟩)
    have : w' ≠ w := by rintro rfl; exact hp w' rfl ⟨c, op, h1, h2⟩
    simp [St.leave, this, h1]
  | user w e =>
    simp only [step] at hs
    repeat' split at hs
    all_goals first | cases hs | skip
    rename_i d hd hpc
    refine silent rfl (rel_keep hR rfl fun w' op h1 h2 => ⟨h1, ?_⟩)
    have : w' ≠ w := by rintro rfl; rw [hd] at h1; cases h1; simp [hpc] at h2
    simp [this]
  | sched w e =>
    simp only [step] at hs
    split at hs <;> cases hs
    rename_i hc
    refine silent rfl (rel_keep hR rfl fun w' op h1 h2 => ⟨h1, ?_⟩)
    have : w' ≠ w := by rintro rfl; simp [hc] at h1
    simp [this]

theorem calm_cons {s s' : St} {a : Act} {as : List Act} {es : List Ev} (h : Calm s (a :: as)) (hs : step s a = some (s', es)) :
    (∀ w, a = .preempt w → ¬ s.Judging w) ∧ Calm s' as := by
  refine ⟨fun w ha => h [] w as s [] (by simp [ha]) rfl, fun as1 w as2 s1 tr hx hr => ?_⟩
  exact h (a :: as1) w as2 s1 (es ++ tr) (by simp [hx]) (by simp [runs, hs, hr])

/-- **C114, partial.** Any number of coroutines and threads, any outcomes of the system calls (that respect the limit of the kernel), any
movement of coroutines between threads and preemption anywhere but between a failed system call and the look at `errno`: every wrapper
tries again after exactly the outcomes it is to skip and otherwise returns its own last outcome, result and error code. -/
theorem C114_own_outcome_partial (as : List Act) (s : St) (es : List Ev) (h : runs step St.init as = some (s, es))
    (hc : Calm St.init as) (hn : ∀ w n, .sys w (.ok n) ∈ as → n ≤ maxRw) (c : Nat) : ∃ q, accepts (spec c) .out es = some q := by
  suffices H : ∀ as (s0 s : St) es q, Agree s0 → Rel s0 c q → runs step s0 as = some (s, es) → Calm s0 as →
      (∀ w n, .sys w (.ok n) ∈ as → n ≤ maxRw) → ∃ q', accepts (spec c) q es = some q' from
    H as St.init s es .out agree_init rfl h hc hn
  intro as
  induction as with
  | nil => intro s0 s es q _ _ h _ _; cases h; exact ⟨q, rfl⟩
  | cons a as ih =>
    intro s0 s es q hA hR h hc hn
    obtain ⟨s', e1, e2, h1, h2, rfl⟩ := runs_cons h
    obtain ⟨c1, c2⟩ := calm_cons hc h1
    obtain ⟨q', k1, k2⟩ := step_spec c hA a s' e1 q hR c1 (fun w n ha => hn w n (by simp [ha])) h1
    obtain ⟨q2, k3⟩ := ih s' s e2 q' (agree_step hA a s' e1 h1) k2 h2 c2 (fun w n hm => hn w n (by simp [hm]))
    exact ⟨q2, by rw [accepts_append, k1]; exact k3⟩

/-- Without preemption there is nothing to assume. -/
theorem C114_cooperative (as : List Act) (s : St) (es : List Ev) (h : runs step St.init as = some (s, es))
    (hp : ∀ w, .preempt w ∉ as) (hn : ∀ w n, .sys w (.ok n) ∈ as → n ≤ maxRw) (c : Nat) : ∃ q, accepts (spec c) .out es = some q :=
  C114_own_outcome_partial as s es h (fun as1 w as2 _ _ ha _ => absurd (by simp [ha]) (hp w)) hn c

/-! ## What holds whenever coroutines are preempted -/

/-- The same specification but for failed system calls, after which the call may try again or return -1 with any error code. No
counterpart in the code. (Concerns co_net.cpp:35-219, co_io.cpp:51-89.) -/
def weak (c : Nat) : Q → Ev → Option Q
  | .out, .call d op => if d = c then some (.trying op.socket) else some .out
  | .trying k, .sys d o => if d = c then some (.got k o) else some (.trying k)
  | .got k (.err x), .again d => if d = c then some (.trying k) else some (.got k (.err x))
  | .got k (.err x), .ret d r _ => if d = c then (if r = -1 then some .out else none) else some (.got k (.err x))
  | .got k (.ok n), .ret d r _ => if d = c then (if r = n then some .out else none) else some (.got k (.ok n))
  | q, .call d _ | q, .sys d _ | q, .again d | q, .ret d _ _ => if d = c then none else some q

theorem weak_other {c : Nat} {q : Q} {e : Ev} (h : e.who ≠ c) : weak c q e = some q := by
  cases q with
  | got k o => cases o <;> cases e <;> simp_all [weak, Ev.who]
  | _ => cases e <;> simp_all [weak, Ev.who]

/-- Proof device: how the weak specification and the machine correspond for `c`. (Concerns co_net.cpp:35-219, co_io.cpp:51-89.) -/
def RelW (s : St) (c : Nat) : Q → Prop
  | .out => s.pc c = .out
  | .trying _ => ∃ op, s.pc c = .loop op
  | .got _ o => ∃ op, s.pc c = .judge op o.ret ∧ ∀ n, o = .ok n → n ≤ maxRw

theorem relW_keep {s s' : St} {c : Nat} {q : Q} (h : RelW s c q) (hp : s'.pc c = s.pc c) : RelW s' c q := by
  cases q <;> simpa [RelW, hp] using h

theorem step_weak (c : Nat) {s : St} (a : Act) (s' : St) (es : List Ev) (q : Q) (hR : RelW s c q)
    (hn : ∀ w n, a = .sys w (.ok n) → n ≤ maxRw) (hs : step s a = some (s', es)) :
    ∃ q', accepts (weak c) q es = some q' ∧ RelW s' c q' := by
  have silent : es = [] → RelW s' c q → ∃ q', accepts (weak c) q es = some q' ∧ RelW s' c q' := by
    rintro rfl h; exact ⟨q, rfl, h⟩
  have others : ∀ e, es = [e] → e.who ≠ c → RelW s' c q → ∃ q', accepts (weak c) q es = some q' ∧ RelW s' c q' := by
    rintro e rfl he h; exact ⟨q, by simp [accepts, weak_other he], h⟩
  cases a with
  | call w op =>
    simp only [step] at hs
    repeat' split at hs
    all_goals first | cases hs | skip
    rename_i d hd hpc
    by_cases hdc : d = c
    · subst hdc
      cases q with
      | out => exact ⟨.trying op.socket, by simp [accepts, weak], op, by simp⟩
      | trying k => obtain ⟨op', h1⟩ := hR; simp [hpc] at h1
      | got k o => obtain ⟨op', h1, _⟩ := hR; simp [hpc] at h1
    · exact others _ rfl hdc (relW_keep hR (by simp [Ne.symm hdc]))
  | sys w o =>
    simp only [step] at hs
    repeat' split at hs
    all_goals first | cases hs | skip
    rename_i d hd _ op hpc
    by_cases hdc : d = c
    · subst hdc
      cases q with
      | out => simp [RelW, hpc] at hR
      | trying k => exact ⟨.got k o, by simp [accepts, weak], op, by simp, fun n hno => hn w n (by rw [hno])⟩
      | got k o => obtain ⟨op', h1, _⟩ := hR; simp [hpc] at h1
    · exact others _ rfl hdc (relW_keep hR (by simp [Ne.symm hdc]))
  | judge w =>
    simp only [step] at hs
    split at hs
    · rename_i d hd
      split at hs
      · rename_i op r hpc
        by_cases hdc : d = c
        · subst hdc
          cases q with
          | out => simp [RelW, hpc] at hR
          | trying k => obtain ⟨op', h1⟩ := hR; simp [hpc] at h1
          | got k o =>
            obtain ⟨op', h1, h3⟩ := hR
            rw [hpc] at h1
            cases h1
            cases o with
            | err x =>
              split at hs <;> cases hs
              · exact ⟨.trying k, by simp [accepts, weak], op, by simp [St.leave]⟩
              · exact ⟨.out, by simp [accepts, weak, Out.ret], by simp [RelW]⟩
            | ok n =>
              have hr : Out.ret (.ok n) = n := toInt_small (h3 n rfl)
              split at hs <;> cases hs
              · rename_i hc; rw [hr] at hc; omega
              · exact ⟨.out, by simp [accepts, weak, hr], by simp [RelW]⟩
        · split at hs <;> cases hs
          · exact others _ rfl hdc (relW_keep hR (by simp [St.leave, Ne.symm hdc]))
          · exact others _ rfl hdc (relW_keep hR (by simp [Ne.symm hdc]))
      · cases hs
    · cases hs
  | _ =>
    simp only [step] at hs
    repeat' split at hs
    all_goals first | cases hs | skip
    all_goals exact silent rfl (relW_keep hR rfl)

/-- **C114, what holds under any preemption.** A call whose system call succeeds returns just that; success and failure are never taken
for each other, and a failure leads to another try or to -1. -/
theorem C114_success (as : List Act) (s : St) (es : List Ev) (h : runs step St.init as = some (s, es))
    (hn : ∀ w n, .sys w (.ok n) ∈ as → n ≤ maxRw) (c : Nat) : ∃ q, accepts (weak c) .out es = some q := by
  suffices H : ∀ as (s0 s : St) es q, RelW s0 c q → runs step s0 as = some (s, es) →
      (∀ w n, .sys w (.ok n) ∈ as → n ≤ maxRw) → ∃ q', accepts (weak c) q es = some q' from
    H as St.init s es .out rfl h hn
  intro as
  induction as with
  | nil => intro s0 s es q _ h _; cases h; exact ⟨q, rfl⟩
  | cons a as ih =>
    intro s0 s es q hR h hn
    obtain ⟨s', e1, e2, h1, h2, rfl⟩ := runs_cons h
    obtain ⟨q', k1, k2⟩ := step_weak c a s' e1 q hR (fun w n ha => hn w n (by simp [ha])) h1
    obtain ⟨q2, k3⟩ := ih s' s e2 q' k2 h2 (fun w n hm => hn w n (by simp [hm]))
    exact ⟨q2, by rw [accepts_append, k1]; exact k3⟩

/-! ## Preempted before the look at `errno` -/

/-- Coroutine 0 makes its system call on thread 0 and is preempted; it is continued by thread 1, whose `errno` is `e`. (Concerns co_net.cpp:35-219, co_io.cpp:51-89.) -/
def moved (op : Op) (e : Nat) : List Act :=
  [.resume 1 1, .user 1 e, .yield 1, .resume 0 0, .call 0 op, .sys 0 (.err EAGAIN), .preempt 0, .resume 1 0, .judge 1]

/-- **C114, negation.** A call that would block is reported as failed, with an error code that has nothing to do with it: any that
stands in the `errno` of the thread that continues the coroutine. -/
theorem C114_would_block_reported (op : Op) (e : Nat) (hs : op.socket ≠ none) (he : op.again e = false) :
    ∃ s es, runs step St.init (moved op e) = some (s, es) ∧ es = [.call 0 op, .sys 0 (.err EAGAIN), .ret 0 (-1) e] ∧
      accepts (spec 0) .out es = none := by
  obtain ⟨b, hb⟩ := Option.ne_none_iff_exists'.1 hs
  have h : ∃ s, runs step St.init (moved op e) = some (s, [.call 0 op, .sys 0 (.err EAGAIN), .ret 0 (-1) e]) := by
    simp [moved, runs, step, St.init, St.leave, Out.ret, Out.errno, he]
  obtain ⟨s, h⟩ := h
  exact ⟨s, _, h, rfl, by simp [accepts, spec, hb, Retries, Skips]⟩

/-- One round: the call of coroutine 0 fails with `e`; it is preempted; coroutine 1, on the same thread, polls a file of its own;
coroutine 0 goes on. (Concerns co_net.cpp:35-219, co_io.cpp:51-89.) -/
def round (e : Nat) : List Act :=
  [.resume 0 0, .sys 0 (.err e), .preempt 0, .resume 0 1, .sys 0 (.err EAGAIN), .judge 0, .resume 0 0, .judge 0]

/-- Both coroutines called `read`; then `k` rounds. (Concerns co_net.cpp:35-219, co_io.cpp:51-89.) -/
def rounds (e : Nat) : Nat → List Act
  | 0 => [.resume 0 0, .call 0 .read, .preempt 0, .resume 0 1, .call 0 .read, .preempt 0]
  | k + 1 => rounds e k ++ round e

/-- The trace of `rounds`. (Concerns co_net.cpp:35-219, co_io.cpp:51-89.) -/
def roundsTrace (e : Nat) : Nat → List Ev
  | 0 => [.call 0 .read, .call 1 .read]
  | k + 1 => roundsTrace e k ++ [.sys 0 (.err e), .sys 1 (.err EAGAIN), .again 1, .again 0]

theorem rounds_runs (e k : Nat) : ∃ s, runs step St.init (rounds e k) = some (s, roundsTrace e k) ∧
    s.cur 0 = none ∧ s.at_ 0 = none ∧ s.at_ 1 = none ∧ s.pc 0 = .loop .read ∧ s.pc 1 = .loop .read := by
  induction k with
  | zero =>
    refine ⟨_, rfl, ?_⟩
    simp [St.init, St.leave]
  | succ k ih =>
    obtain ⟨s, h, h1, h2, h3, h4, h5⟩ := ih
    have hr : ∃ s', runs step s (round e) = some (s', [.sys 0 (.err e), .sys 1 (.err EAGAIN), .again 1, .again 0]) ∧
        s'.cur 0 = none ∧ s'.at_ 0 = none ∧ s'.at_ 1 = none ∧ s'.pc 0 = .loop .read ∧ s'.pc 1 = .loop .read := by
      simp [round, runs, step, St.leave, h1, h2, h3, h4, h5, Out.ret, Out.errno, Op.again]
    obtain ⟨s', h6, h7⟩ := hr
    exact ⟨s', runs_append h h6, h7⟩

/-- **C114, negation.** A call that fails with any error `e`, also a permanent one, is tried again, any number of times, if each time
another coroutine of the thread that polls comes in between. -/
theorem C114_error_retried (e k : Nat) : ∃ as s es, runs step St.init as = some (s, es) ∧ es.count (.again 0) = k ∧
    (∀ o, .sys 0 o ∈ es → o = .err e) ∧ ∀ r x, .ret 0 r x ∉ es := by
  obtain ⟨s, h, _⟩ := rounds_runs e k
  refine ⟨_, s, _, h, ?_⟩
  clear h
  induction k with
  | zero => simp [roundsTrace]
  | succ k ih =>
    obtain ⟨h1, h2, h3⟩ := ih
    refine ⟨by simp [roundsTrace, List.count_append, h1], fun o ho => ?_, fun r x hx => ?_⟩
    · simp only [roundsTrace, List.mem_append, List.mem_cons, List.not_mem_nil, or_false] at ho
      rcases ho with ho | ho
      · exact h2 o ho
      · simpa using ho
    · simp only [roundsTrace, List.mem_append, List.mem_cons, List.not_mem_nil, or_false] at hx
      rcases hx with hx | hx
      · exact h3 r x hx
      · simp at hx

/-! ## Examples -/

/-- Two coroutines on two threads; coroutine 0 would block, moves to thread 1 while waiting, is preempted before its next system call and
then gets 12 bytes; coroutine 1 gets error 9 (`EBADF`). (Concerns co_net.cpp:35-219, co_io.cpp:51-89.) -/
def demo : List Act :=
  [.resume 0 0, .call 0 .recv, .sys 0 (.err EAGAIN), .judge 0, .resume 0 1, .call 0 .read, .resume 1 0, .preempt 1, .sched 1 EAGAIN, .resume 1 0,
    .sys 0 (.err 9), .sys 1 (.ok 12), .preempt 1, .sched 1 EAGAIN, .judge 0, .resume 1 0, .judge 1]

example : (runs step St.init demo).map (·.2) = some [.call 0 .recv, .sys 0 (.err EAGAIN), .again 0, .call 1 .read, .sys 1 (.err 9), .sys 0 (.ok 12),
    .ret 1 (-1) 9, .ret 0 12 EAGAIN] := by rfl

/-- `C114_would_block_reported` in numbers: `read` would block and says `ENOENT`. -/
example : (runs step St.init (moved .read 2)).map (·.2) = some [.call 0 .read, .sys 0 (.err EAGAIN), .ret 0 (-1) 2] := by rfl

/-- `C114_error_retried` in numbers: `EBADF` is retried twice. -/
example : (runs step St.init (rounds 9 2)).map (fun r => r.2.filter (fun e => e.who = 0)) =
    some [.call 0 .read, .sys 0 (.err 9), .again 0, .sys 0 (.err 9), .again 0] := by rfl

end Verif.Io.Errno
