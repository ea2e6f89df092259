import Verif.Base.Lts

/-! # Descriptors behind I/O objects

`co_io` and what derives from it (`co_file`, `co_net`) are values with one member, the descriptor number (co_io.h:12-15): they can be
copied (`co_client::get_endpoint`, `co_server::get_endpoint` return copies), and their destructor does nothing (co_io.h:33). The
machine of this file is a program with any number of such objects over the kernel's table of descriptors. -/

namespace Verif.Io.Fd

/-- `tab`: the kernel's table, descriptor number to open file; `nb`: the flag O_NONBLOCK of an open file; `next`: files opened so far;
`fd`: the member `fd__` of every object (co_io.h:15; `none` for -1, which a default-constructed object has); `ext`: descriptors
opened by the rest of the program, without the library. -/
structure State where
  tab : Nat → Option Nat
  nb : Nat → Bool
  next : Nat
  fd : Nat → Option Nat
  ext : Nat → Bool

/-- At the start of the program descriptors 0, 1, 2 are open. (Concerns co_io.cpp:13-147, co_io.h:12-33.) -/
def State.init : State := ⟨fun n => if n < 3 then some n else none, fun _ => false, 3, fun _ => none, fun n => decide (n < 3)⟩

/-- What `co_io::close` met in the kernel. (Concerns co_io.cpp:13-147, co_io.h:12-33.) -/
inductive Closed
  | ok
  | ebadf
  | err
deriving DecidableEq, Repr

/-- Events. (Concerns co_io.cpp:13-147, co_io.h:12-33.) -/
inductive Ev
  /-- the library returned object `o` for the new file `f` -/
  | opened (o f : Nat)
  /-- `init_fd` had failed -/
  | initFailed (o : Nat)
  /-- `p = o`, or `p` constructed from `o` -/
  | copied (o p : Nat)
  | closed (o : Nat) (r : Closed)
  /-- an operation of object `o` reached this file, whose flag O_NONBLOCK is so; `none`: EBADF -/
  | reached (o : Nat) (r : Option (Nat × Bool))
  /-- `o.fcntl(F_SETFL, arg)` -/
  | setfl (o arg : Nat)
  /-- end of life of `o` -/
  | dropped (o : Nat)
  | extOpened (f : Nat)
  | extClosed (f : Nat)
deriving DecidableEq, Repr

/-- Choices. (Concerns co_io.cpp:13-147, co_io.h:12-33.) -/
inductive Act
  /-- `o = co_file::open(..)`, `co_net::socket(..)`, `accept(..)`: the kernel's descriptor, whether the file has O_NONBLOCK already, and
  whether the two `fcntl` calls succeed -/
  | open (o n : Nat) (nb get set : Bool)
  | copy (o p : Nat)
  /-- `err`: `close` reports an error such as EIO or EINTR -/
  | close (o : Nat) (err : Bool)
  | io (o : Nat)
  /-- `va`: the address of the `va_list` -/
  | setfl (o arg va : Nat)
  | drop (o : Nat)
  | extOpen (n : Nat) (nb : Bool)
  | extClose (n : Nat)
deriving DecidableEq, Repr

/-- O_NONBLOCK = 04000 in a word of flags. (Concerns co_io.cpp:13-147, co_io.h:12-33.) -/
def nonblock (w : Nat) : Bool := w.testBit 11

/-- One step.
* `open`: co_file.cpp:5-17, co_net.cpp:11-24, 31-49 with `init_fd` (co_io.cpp:13-36), whose result is ignored. The kernel answers with
  any free number (it takes the lowest).
* `close`: co_io.cpp:38-48; the kernel (Linux) frees the number also when it reports an error.
* `io`: read, write, lseek, fstat, … (co_io.cpp:50-147, co_net.cpp) all pass `fd__`. How often they retry is in Io.lean.
* `setfl`: `fcntl` (co_io.cpp:110-118) passes the `va_list` itself instead of the argument; on x86-64 that is its address. Only the flag
  O_NONBLOCK is modelled. -/
def step (s : State) : Act → Option (State × List Ev)
  | .open o n nb get set =>
    if s.tab n = none then
      let good := get && (nb || set)
      some (⟨upd s.tab n (some s.next), upd s.nb s.next (nb || good), s.next + 1, upd s.fd o (if good then some n else none),
          upd s.ext n false⟩,
        .opened o s.next :: if good then [] else [.initFailed o])
    else none
  | .copy o p => some ({ s with fd := upd s.fd p (s.fd o) }, [.copied o p])
  | .close o err =>
    match s.fd o with
    | none => some (s, [.closed o .ebadf])
    | some n =>
      match s.tab n with
      | none => some (s, [.closed o .ebadf])
      | some _ =>
        if err then some ({ s with tab := upd s.tab n none }, [.closed o .err])
        else some ({ s with tab := upd s.tab n none, fd := upd s.fd o none }, [.closed o .ok])
  | .io o => some (s, [.reached o (((s.fd o).bind s.tab).map fun f => (f, s.nb f))])
  | .setfl o arg va =>
    match (s.fd o).bind s.tab with
    | none => some (s, [.setfl o arg])
    | some f => some ({ s with nb := upd s.nb f (nonblock va) }, [.setfl o arg])
  | .drop o => some ({ s with fd := upd s.fd o none }, [.dropped o])
  | .extOpen n nb =>
    if s.tab n = none then
      some (⟨upd s.tab n (some s.next), upd s.nb s.next nb, s.next + 1, s.fd, upd s.ext n true⟩, [.extOpened s.next])
    else none
  | .extClose n =>
    match s.tab n with
    | some f => if s.ext n = true then some ({ s with tab := upd s.tab n none }, [.extClosed f]) else none
    | none => none

/-! ## What a user expects -/

/-- The file each object stands for: the one it was opened for, a copy the same; none after a successful close. (Concerns co_io.cpp:13-147, co_io.h:12-33.) -/
def note (w : Nat → Option Nat) : Ev → Nat → Option Nat
  | .opened o f => upd w o (some f)
  | .copied o p => upd w p (w o)
  | .closed o .ok => upd w o none
  | .dropped o => upd w o none
  | _ => w

/-- The same after a history. (Concerns co_io.cpp:13-147, co_io.h:12-33.) -/
def want (tr : List Ev) : Nat → Option Nat := tr.foldl note (fun _ => none)

/-- `o` is the only object for its file. (Concerns co_io.cpp:13-147, co_io.h:12-33.) -/
def Sole (w : Nat → Option Nat) (o : Nat) : Prop := ∀ p, p ≠ o → w o ≠ none → w p ≠ w o

/-- A careful program and a friendly kernel: an object is closed only when no other stands for its file, and neither `fcntl` nor
`close` reports an error. (Concerns co_io.cpp:13-147, co_io.h:12-33.) -/
def careful (w : Nat → Option Nat) : Ev → Prop
  | .closed o r => r ≠ .err ∧ Sole w o
  | .initFailed _ => False
  | _ => True

/-- All of a history is careful. (Concerns co_io.cpp:13-147, co_io.h:12-33.) -/
def Careful (tr : List Ev) : Prop := ∀ pre e post, tr = pre ++ e :: post → careful (want pre) e

/-- A tidy program: an object for an open file does not end and is not overwritten unless another object stands for the file. (Concerns co_io.cpp:13-147, co_io.h:12-33.) -/
def tidy (w : Nat → Option Nat) : Ev → Prop
  | .opened o _ => w o ≠ none → ¬ Sole w o
  | .copied o p => o ≠ p → w p ≠ none → ¬ Sole w p
  | .dropped o => w o ≠ none → ¬ Sole w o
  | _ => True

/-- All of a history is tidy. (Concerns co_io.cpp:13-147, co_io.h:12-33.) -/
def Tidy (tr : List Ev) : Prop := ∀ pre e post, tr = pre ++ e :: post → tidy (want pre) e

theorem want_append (a b : List Ev) : want (a ++ b) = b.foldl note (want a) := by simp [want]

/-! ## Invariants -/

/-- What holds in every history: files are opened once. (Concerns co_io.cpp:13-147, co_io.h:12-33.) -/
structure Base (s : State) : Prop where
  lt : ∀ n f, s.tab n = some f → f < s.next
  inj : ∀ n m f, s.tab n = some f → s.tab m = some f → n = m

theorem base_init : Base State.init := by
  constructor
  · intro n f h
    simp only [State.init] at h ⊢
    split at h
    · simp at h; omega
    · simp at h
  · intro n m f h1 h2
    simp only [State.init] at h1 h2
    split at h1 <;> split at h2 <;> simp_all

theorem base_new {s : State} (h : Base s) (n : Nat) (nb : Nat → Bool) (fd : Nat → Option Nat) (ext : Nat → Bool) :
    Base ⟨upd s.tab n (some s.next), nb, s.next + 1, fd, ext⟩ := by
  constructor
  · intro m f hm
    by_cases hmn : m = n
    · subst hmn; simp only [upd_same, Option.some.injEq] at hm; subst hm; simp
    · simp only [upd_other _ _ hmn] at hm
      have := h.lt m f hm
      simp only; omega
  · intro m k f h1 h2
    by_cases hm : m = n <;> by_cases hk : k = n
    · rw [hm, hk]
    · subst hm
      simp only [upd_same, Option.some.injEq] at h1
      simp only [upd_other _ _ hk] at h2
      have := h.lt k f h2; omega
    · subst hk
      simp only [upd_same, Option.some.injEq] at h2
      simp only [upd_other _ _ hm] at h1
      have := h.lt m f h1; omega
    · simp only [upd_other _ _ hm, upd_other _ _ hk] at h1 h2
      exact h.inj m k f h1 h2

theorem base_del {s : State} (h : Base s) (n : Nat) (nb : Nat → Bool) (fd : Nat → Option Nat) (ext : Nat → Bool) :
    Base ⟨upd s.tab n none, nb, s.next, fd, ext⟩ := by
  constructor
  · intro m f hm
    by_cases hmn : m = n
    · subst hmn; simp at hm
    · simp only [upd_other _ _ hmn] at hm
      exact h.lt m f hm
  · intro m k f h1 h2
    by_cases hm : m = n
    · subst hm; simp at h1
    · by_cases hk : k = n
      · subst hk; simp at h2
      · simp only [upd_other _ _ hm, upd_other _ _ hk] at h1 h2
        exact h.inj m k f h1 h2

theorem base_step {s s' : State} {a : Act} {es : List Ev} (h : Base s) (hs : step s a = some (s', es)) : Base s' := by
  cases a with
  | «open» o n nb get st =>
    simp only [step] at hs
    split at hs
    · simp only [Option.some.injEq, Prod.mk.injEq] at hs
      obtain ⟨rfl, rfl⟩ := hs
      exact base_new h n _ _ _
    · simp at hs
  | copy o p =>
    simp only [step, Option.some.injEq, Prod.mk.injEq] at hs
    obtain ⟨rfl, rfl⟩ := hs
    exact ⟨h.lt, h.inj⟩
  | close o err =>
    simp only [step] at hs
    split at hs
    · simp only [Option.some.injEq, Prod.mk.injEq] at hs; obtain ⟨rfl, rfl⟩ := hs; exact h
    · split at hs
      · simp only [Option.some.injEq, Prod.mk.injEq] at hs; obtain ⟨rfl, rfl⟩ := hs; exact h
      · split at hs <;> simp only [Option.some.injEq, Prod.mk.injEq] at hs <;> obtain ⟨rfl, rfl⟩ := hs <;> exact base_del h _ _ _ _
  | io o => simp only [step, Option.some.injEq, Prod.mk.injEq] at hs; obtain ⟨rfl, rfl⟩ := hs; exact h
  | setfl o arg va =>
    simp only [step] at hs
    split at hs <;> simp only [Option.some.injEq, Prod.mk.injEq] at hs <;> obtain ⟨rfl, rfl⟩ := hs
    · exact h
    · exact ⟨h.lt, h.inj⟩
  | drop o =>
    simp only [step, Option.some.injEq, Prod.mk.injEq] at hs
    obtain ⟨rfl, rfl⟩ := hs
    exact ⟨h.lt, h.inj⟩
  | extOpen n nb =>
    simp only [step] at hs
    split at hs
    · simp only [Option.some.injEq, Prod.mk.injEq] at hs
      obtain ⟨rfl, rfl⟩ := hs
      exact base_new h n _ _ _
    · simp at hs
  | extClose n =>
    simp only [step] at hs
    split at hs
    · split at hs
      · simp only [Option.some.injEq, Prod.mk.injEq] at hs
        obtain ⟨rfl, rfl⟩ := hs
        exact base_del h _ _ _ _
      · simp at hs
    · simp at hs

/-- What holds after a careful history. (Concerns co_io.cpp:13-147, co_io.h:12-33.) -/
structure Good (s : State) (w : Nat → Option Nat) : Prop where
  base : Base s
  want : ∀ o, w o = (s.fd o).bind s.tab
  live : ∀ o n, s.fd o = some n → s.tab n ≠ none
  ext : ∀ o n, s.fd o = some n → s.ext n = false

theorem good_init : Good State.init (fun _ => none) :=
  ⟨base_init, fun _ => rfl, fun o n h => by simp [State.init] at h, fun o n h => by simp [State.init] at h⟩

theorem sole_fd {s : State} {w : Nat → Option Nat} (h : Good s w) {o p n f : Nat} (hS : Sole w o) (hf : s.fd o = some n)
    (ht : s.tab n = some f) (hp : s.fd p = some n) : p = o := by
  refine Classical.byContradiction fun hne => ?_
  have h1 : w o = some f := by rw [h.want, hf]; exact ht
  have h2 : w p = some f := by rw [h.want, hp]; exact ht
  exact hS p hne (by rw [h1]; simp) (by rw [h1, h2])

theorem good_step {s s' : State} {a : Act} {es : List Ev} {w : Nat → Option Nat} (h : Good s w) (hs : step s a = some (s', es))
    (hc : ∀ pre e post, es = pre ++ e :: post → careful (pre.foldl note w) e) : Good s' (es.foldl note w) := by
  have hB := base_step h.base hs
  cases a with
  | «open» o n nb get st =>
    simp only [step] at hs
    split at hs
    · rename_i ht
      simp only [Option.some.injEq, Prod.mk.injEq] at hs
      obtain ⟨rfl, rfl⟩ := hs
      cases hg : (get && (nb || st)) with
      | false => exact (hc [.opened o s.next] (.initFailed o) [] (by simp [hg])).elim
      | true =>
        simp only [hg, if_true] at hB ⊢
        have hne : ∀ p m, s.fd p = some m → m ≠ n := fun p m hm => by rintro rfl; exact h.live p m hm ht
        refine ⟨hB, ?_, ?_, ?_⟩
        · intro p
          simp only [List.foldl_cons, List.foldl_nil, note]
          by_cases hp : p = o
          · subst hp; simp
          · simp only [upd_other _ _ hp]
            rw [h.want]
            cases hfd : s.fd p with
            | none => rfl
            | some m => simp [upd_other _ _ (hne p m hfd)]
        · intro p m hm
          by_cases hmn : m = n
          · subst hmn; simp
          · simp only [upd_other _ _ hmn]
            by_cases hp : p = o
            · subst hp; simp at hm; exact absurd hm.symm hmn
            · exact h.live p m (by simpa only [upd_other _ _ hp] using hm)
        · intro p m hm
          by_cases hmn : m = n
          · subst hmn; simp
          · simp only [upd_other _ _ hmn]
            by_cases hp : p = o
            · subst hp; simp at hm; exact absurd hm.symm hmn
            · exact h.ext p m (by simpa only [upd_other _ _ hp] using hm)
    · simp at hs
  | copy o p =>
    simp only [step, Option.some.injEq, Prod.mk.injEq] at hs
    obtain ⟨rfl, rfl⟩ := hs
    refine ⟨hB, ?_, ?_, ?_⟩
    · intro q
      simp only [List.foldl_cons, List.foldl_nil, note]
      by_cases hq : q = p
      · subst hq; simp [h.want]
      · simp only [upd_other _ _ hq]; exact h.want q
    · intro q m hm
      by_cases hq : q = p
      · subst hq; simp only [upd_same] at hm; exact h.live o m hm
      · simp only [upd_other _ _ hq] at hm; exact h.live q m hm
    · intro q m hm
      by_cases hq : q = p
      · subst hq; simp only [upd_same] at hm; exact h.ext o m hm
      · simp only [upd_other _ _ hq] at hm; exact h.ext q m hm
  | close o err =>
    simp only [step] at hs
    split at hs
    · simp only [Option.some.injEq, Prod.mk.injEq] at hs; obtain ⟨rfl, rfl⟩ := hs; exact h
    · rename_i n hfd
      split at hs
      · simp only [Option.some.injEq, Prod.mk.injEq] at hs; obtain ⟨rfl, rfl⟩ := hs; exact h
      · rename_i f ht
        split at hs <;> simp only [Option.some.injEq, Prod.mk.injEq] at hs <;> obtain ⟨rfl, rfl⟩ := hs
        · exact absurd rfl (hc [] (.closed o .err) [] rfl).1
        · have hS := (hc [] (.closed o .ok) [] rfl).2
          simp only [List.foldl_nil] at hS
          have hne : ∀ p m, p ≠ o → s.fd p = some m → m ≠ n := fun p m hp hm => by
            rintro rfl; exact hp (sole_fd h hS hfd ht hm)
          refine ⟨hB, ?_, ?_, ?_⟩
          · intro p
            simp only [List.foldl_cons, List.foldl_nil, note]
            by_cases hp : p = o
            · subst hp; simp
            · simp only [upd_other _ _ hp]
              rw [h.want]
              cases hfd : s.fd p with
              | none => rfl
              | some m => simp [upd_other _ _ (hne p m hp hfd)]
          · intro p m hm
            by_cases hp : p = o
            · subst hp; simp at hm
            · simp only [upd_other _ _ hp] at hm
              simp only [upd_other _ _ (hne p m hp hm)]; exact h.live p m hm
          · intro p m hm
            by_cases hp : p = o
            · subst hp; simp at hm
            · simp only [upd_other _ _ hp] at hm
              exact h.ext p m hm
  | io o => simp only [step, Option.some.injEq, Prod.mk.injEq] at hs; obtain ⟨rfl, rfl⟩ := hs; exact h
  | setfl o arg va =>
    simp only [step] at hs
    split at hs <;> simp only [Option.some.injEq, Prod.mk.injEq] at hs <;> obtain ⟨rfl, rfl⟩ := hs
    · exact h
    · exact ⟨hB, h.want, h.live, h.ext⟩
  | drop o =>
    simp only [step, Option.some.injEq, Prod.mk.injEq] at hs
    obtain ⟨rfl, rfl⟩ := hs
    refine ⟨hB, ?_, ?_, ?_⟩
    · intro p
      simp only [List.foldl_cons, List.foldl_nil, note]
      by_cases hp : p = o
      · subst hp; simp
      · simp only [upd_other _ _ hp]; exact h.want p
    · intro p m hm
      by_cases hp : p = o
      · subst hp; simp at hm
      · simp only [upd_other _ _ hp] at hm; exact h.live p m hm
    · intro p m hm
      by_cases hp : p = o
      · subst hp; simp at hm
      · simp only [upd_other _ _ hp] at hm; exact h.ext p m hm
  | extOpen n nb =>
    simp only [step] at hs
    split at hs
    · rename_i ht
      simp only [Option.some.injEq, Prod.mk.injEq] at hs
      obtain ⟨rfl, rfl⟩ := hs
      have hne : ∀ p m, s.fd p = some m → m ≠ n := fun p m hm => by rintro rfl; exact h.live p m hm ht
      refine ⟨hB, ?_, ?_, ?_⟩
      · intro p
        simp only [List.foldl_cons, List.foldl_nil, note]
        rw [h.want]
        cases hfd : s.fd p with
        | none => rfl
        | some m => simp [upd_other _ _ (hne p m hfd)]
      · intro p m hm
        simp only [upd_other _ _ (hne p m hm)]; exact h.live p m hm
      · intro p m hm
        simp only [upd_other _ _ (hne p m hm)]; exact h.ext p m hm
    · simp at hs
  | extClose n =>
    simp only [step] at hs
    split at hs
    · split at hs
      · rename_i he
        simp only [Option.some.injEq, Prod.mk.injEq] at hs
        obtain ⟨rfl, rfl⟩ := hs
        have hne : ∀ p m, s.fd p = some m → m ≠ n := fun p m hm => by
          rintro rfl; have := h.ext p m hm; rw [he] at this; cases this
        refine ⟨hB, ?_, ?_, ?_⟩
        · intro p
          simp only [List.foldl_cons, List.foldl_nil, note]
          rw [h.want]
          cases hfd : s.fd p with
          | none => rfl
          | some m => simp [upd_other _ _ (hne p m hfd)]
        · intro p m hm
          simp only [upd_other _ _ (hne p m hm)]; exact h.live p m hm
        · exact h.ext
      · simp at hs
    · simp at hs

/-- The general induction over careful histories: `P` is kept by the steps. -/
theorem careful_runs (P : State → List Ev → Prop) (h0 : P State.init [])
    (hstep : ∀ s a s' es tr, Good s (want tr) → P s tr → step s a = some (s', es) → Careful (tr ++ es) → P s' (tr ++ es)) :
    ∀ (as : List Act) (s : State) (tr : List Ev), runs step State.init as = some (s, tr) → Careful tr → Good s (want tr) ∧ P s tr := by
  intro as s tr hr hC
  have key := runs_hist (step := step) (fun s tr => Careful tr → Good s (want tr) ∧ P s tr) (by
    intro s a s' es tr hI hs hC
    have hC1 : Careful tr := fun pre e post he => hC pre e (post ++ es) (by rw [he]; simp)
    obtain ⟨hG, hP⟩ := hI hC1
    refine ⟨?_, hstep s a s' es tr hG hP hs hC⟩
    rw [want_append]
    refine good_step hG hs (fun pre e post he => ?_)
    have := hC (tr ++ pre) e post (by rw [he]; simp)
    rwa [want_append] at this) as State.init s tr [] (fun _ => ⟨good_init, h0⟩) hr
  simpa using key hC

theorem reached_step {s s' : State} {a : Act} {o : Nat} {r : Option (Nat × Bool)} {p q : List Ev}
    (h : step s a = some (s', p ++ .reached o r :: q)) :
    a = .io o ∧ p = [] ∧ q = [] ∧ s = s' ∧ r = ((s.fd o).bind s.tab).map fun f => (f, s.nb f) := by
  cases a with
  | io o' =>
    simp only [step, Option.some.injEq, Prod.mk.injEq] at h
    obtain ⟨rfl, h⟩ := h
    cases p with
    | nil =>
      simp only [List.nil_append, List.cons.injEq, Ev.reached.injEq] at h
      obtain ⟨⟨rfl, rfl⟩, h⟩ := h
      exact ⟨rfl, rfl, h.symm, rfl, rfl⟩
    | cons x p =>
      have := congrArg List.length h
      simp at this
  | _ =>
    exfalso
    simp only [step] at h
    repeat' split at h
    all_goals simp only [Option.some.injEq, Prod.mk.injEq, reduceCtorEq] at h
    all_goals
      obtain ⟨_, h⟩ := h
      have : Ev.reached o r ∈ p ++ Ev.reached o r :: q := by simp
      rw [← h] at this
      revert this
      first | simp | (split <;> simp)

theorem careful_pre {p q : List Ev} (h : Careful (p ++ q)) : Careful p :=
  fun pr e po hp => h pr e (po ++ q) (by rw [hp]; simp)

theorem good_runs {as : List Act} {s : State} {tr : List Ev} (h : runs step State.init as = some (s, tr)) (hC : Careful tr) :
    Good s (want tr) :=
  (careful_runs (fun _ _ => True) trivial (fun _ _ _ _ _ _ _ _ _ => trivial) as s tr h hC).1

/-- **C99 (partial)**: in a careful history every operation of an object reaches the file the object stands for, and fails exactly
when it stands for none. -/
theorem C99_reaches_partial {as : List Act} {s : State} {tr : List Ev} (h : runs step State.init as = some (s, tr)) (hC : Careful tr)
    {pre post : List Ev} {o : Nat} {r : Option (Nat × Bool)} (he : tr = pre ++ .reached o r :: post) : r.map (·.1) = want pre o := by
  subst he
  obtain ⟨as1, a, as2, s1, s2, p1, p2, q1, q2, rfl, k1, k2, k3, e1, e2⟩ := runs_split as _ _ pre _ post h
  obtain ⟨rfl, rfl, rfl, rfl, rfl⟩ := reached_step k2
  rw [List.append_nil] at e1
  subst e1
  have hG := good_runs k1 (careful_pre hC)
  rw [hG.want, Option.map_map]
  cases (s1.fd o).bind s1.tab <;> rfl

theorem other_owner {s : State} {w : Nat → Option Nat} (h : Good s w) {o n f : Nat} (hf : s.fd o = some n) (ht : s.tab n = some f)
    (hS : w o ≠ none → ¬ Sole w o) : ∃ p, p ≠ o ∧ s.fd p = some n := by
  have h1 : w o = some f := by rw [h.want, hf]; exact ht
  have := hS (by rw [h1]; simp)
  simp only [Sole, Classical.not_forall, not_imp, Classical.not_not] at this
  obtain ⟨p, hp, _, h2⟩ := this
  rw [h1, h.want] at h2
  cases hfp : s.fd p with
  | none => rw [hfp] at h2; simp at h2
  | some m =>
    rw [hfp] at h2
    exact ⟨p, hp, by rw [hfp, h.base.inj n m f ht h2]⟩

/-- Every open descriptor of the library belongs to an object. (Concerns co_io.cpp:13-147, co_io.h:12-33.) -/
def Owned (s : State) : Prop := ∀ n f, s.tab n = some f → s.ext n = true ∨ ∃ o, s.fd o = some n

theorem owned_step {s s' : State} {a : Act} {es : List Ev} {w : Nat → Option Nat} (h : Good s w) (hO : Owned s)
    (hs : step s a = some (s', es)) (hc : ∀ pre e post, es = pre ++ e :: post → careful (pre.foldl note w) e)
    (ht : ∀ pre e post, es = pre ++ e :: post → tidy (pre.foldl note w) e) : Owned s' := by
  cases a with
  | «open» o n nb get st =>
    simp only [step] at hs
    split at hs
    · rename_i htn
      simp only [Option.some.injEq, Prod.mk.injEq] at hs
      obtain ⟨rfl, rfl⟩ := hs
      cases hg : (get && (nb || st)) with
      | false => exact (hc [.opened o s.next] (.initFailed o) [] (by simp [hg])).elim
      | true =>
        have hti := ht [] (.opened o s.next) _ rfl
        simp only [List.foldl_nil, tidy] at hti
        intro m f hm
        simp only [if_true]
        by_cases hmn : m = n
        · subst hmn; exact .inr ⟨o, by simp⟩
        · simp only [upd_other _ _ hmn] at hm ⊢
          rcases hO m f hm with h1 | ⟨p, hp⟩
          · exact .inl h1
          · by_cases hpo : p = o
            · subst hpo
              obtain ⟨q, hq, hq2⟩ := other_owner h hp hm hti
              exact .inr ⟨q, by simp only [upd_other _ _ hq]; exact hq2⟩
            · exact .inr ⟨p, by simp only [upd_other _ _ hpo]; exact hp⟩
    · simp at hs
  | copy o p =>
    simp only [step, Option.some.injEq, Prod.mk.injEq] at hs
    obtain ⟨rfl, rfl⟩ := hs
    have hti := ht [] (.copied o p) _ rfl
    simp only [List.foldl_nil, tidy] at hti
    intro m f hm
    rcases hO m f hm with h1 | ⟨q, hq⟩
    · exact .inl h1
    · by_cases hqp : q = p
      · subst hqp
        by_cases hoq : o = q
        · subst hoq; exact .inr ⟨o, by simpa using hq⟩
        · obtain ⟨q', hq', hq2⟩ := other_owner h hq hm (hti hoq)
          exact .inr ⟨q', by simp only [upd_other _ _ hq']; exact hq2⟩
      · exact .inr ⟨q, by simp only [upd_other _ _ hqp]; exact hq⟩
  | close o err =>
    simp only [step] at hs
    split at hs
    · simp only [Option.some.injEq, Prod.mk.injEq] at hs; obtain ⟨rfl, rfl⟩ := hs; exact hO
    · rename_i n hfd
      split at hs
      · simp only [Option.some.injEq, Prod.mk.injEq] at hs; obtain ⟨rfl, rfl⟩ := hs; exact hO
      · rename_i f htn
        split at hs <;> simp only [Option.some.injEq, Prod.mk.injEq] at hs <;> obtain ⟨rfl, rfl⟩ := hs
        · exact absurd rfl (hc [] (.closed o .err) [] rfl).1
        · intro m g hm
          by_cases hmn : m = n
          · subst hmn; simp at hm
          · simp only [upd_other _ _ hmn] at hm
            rcases hO m g hm with h1 | ⟨p, hp⟩
            · exact .inl h1
            · have hpo : p ≠ o := by rintro rfl; rw [hfd] at hp; exact hmn (by simpa using hp.symm)
              exact .inr ⟨p, by simp only [upd_other _ _ hpo]; exact hp⟩
  | io o => simp only [step, Option.some.injEq, Prod.mk.injEq] at hs; obtain ⟨rfl, rfl⟩ := hs; exact hO
  | setfl o arg va =>
    simp only [step] at hs
    split at hs <;> simp only [Option.some.injEq, Prod.mk.injEq] at hs <;> obtain ⟨rfl, rfl⟩ := hs <;> exact hO
  | drop o =>
    simp only [step, Option.some.injEq, Prod.mk.injEq] at hs
    obtain ⟨rfl, rfl⟩ := hs
    have hti := ht [] (.dropped o) _ rfl
    simp only [List.foldl_nil, tidy] at hti
    intro m f hm
    rcases hO m f hm with h1 | ⟨q, hq⟩
    · exact .inl h1
    · by_cases hqo : q = o
      · subst hqo
        obtain ⟨q', hq', hq2⟩ := other_owner h hq hm hti
        exact .inr ⟨q', by simp only [upd_other _ _ hq']; exact hq2⟩
      · exact .inr ⟨q, by simp only [upd_other _ _ hqo]; exact hq⟩
  | extOpen n nb =>
    simp only [step] at hs
    split at hs
    · simp only [Option.some.injEq, Prod.mk.injEq] at hs
      obtain ⟨rfl, rfl⟩ := hs
      intro m f hm
      by_cases hmn : m = n
      · subst hmn; exact .inl (by simp)
      · simp only [upd_other _ _ hmn] at hm ⊢
        exact hO m f hm
    · simp at hs
  | extClose n =>
    simp only [step] at hs
    split at hs
    · split at hs
      · simp only [Option.some.injEq, Prod.mk.injEq] at hs
        obtain ⟨rfl, rfl⟩ := hs
        intro m f hm
        by_cases hmn : m = n
        · subst hmn; simp at hm
        · simp only [upd_other _ _ hmn] at hm
          exact hO m f hm
      · simp at hs
    · simp at hs

/-- **C99 (partial)**: after a careful and tidy history in which every object has been closed (or never stood for a file), no
descriptor of the library is left open. -/
theorem C99_no_leak_partial {as : List Act} {s : State} {tr : List Ev} (h : runs step State.init as = some (s, tr)) (hC : Careful tr)
    (hT : Tidy tr) (hall : ∀ o, want tr o = none) (n f : Nat) (hn : s.tab n = some f) : s.ext n = true := by
  obtain ⟨hG, hP⟩ := careful_runs (fun s tr => Tidy tr → Owned s) (by
      intro _ n f hn
      left
      simp only [State.init] at hn ⊢
      split at hn
      · simpa
      · simp at hn)
    (by
      intro s a s' es tr hG hP hs hC hT
      refine owned_step hG (hP fun pr e po hp => hT pr e (po ++ es) (by rw [hp]; simp)) hs ?_ ?_
      · intro pre e post he
        have := hC (tr ++ pre) e post (by rw [he]; simp)
        rwa [want_append] at this
      · intro pre e post he
        have := hT (tr ++ pre) e post (by rw [he]; simp)
        rwa [want_append] at this) as s tr h hC
  rcases hP hT n f hn with h1 | ⟨o, ho⟩
  · exact h1
  · have := hall o
    rw [hG.want, ho] at this
    simp only [Option.bind_some] at this
    rw [hn] at this
    cases this

/-! ## What does not hold -/

/-- Proof device: file `f` is closed for good. (Concerns co_io.cpp:13-147, co_io.h:12-33.) -/
structure Gone (f : Nat) (s : State) : Prop where
  lt : f < s.next
  off : ∀ n, s.tab n ≠ some f

theorem gone_step {f : Nat} {s s' : State} {a : Act} {es : List Ev} (h : Gone f s) (hs : step s a = some (s', es)) : Gone f s' := by
  have hnew : ∀ n nb fd ext, Gone f ⟨upd s.tab n (some s.next), nb, s.next + 1, fd, ext⟩ := by
    intro n nb fd ext
    refine ⟨Nat.lt_succ_of_lt h.lt, fun m hm => ?_⟩
    by_cases hmn : m = n
    · subst hmn; simp only [upd_same, Option.some.injEq] at hm; have := h.lt; omega
    · simp only [upd_other _ _ hmn] at hm; exact h.off m hm
  have hdel : ∀ n nb fd ext, Gone f ⟨upd s.tab n none, nb, s.next, fd, ext⟩ := by
    intro n nb fd ext
    refine ⟨h.lt, fun m hm => ?_⟩
    by_cases hmn : m = n
    · subst hmn; simp at hm
    · simp only [upd_other _ _ hmn] at hm; exact h.off m hm
  cases a <;> simp only [step] at hs <;> (repeat' split at hs) <;> simp only [Option.some.injEq, Prod.mk.injEq, reduceCtorEq] at hs <;>
    obtain ⟨rfl, rfl⟩ := hs <;> first | exact hnew _ _ _ _ | exact hdel _ _ _ _ | exact ⟨h.lt, h.off⟩

theorem gone_runs {f : Nat} {as : List Act} {s s' : State} {es : List Ev} (h : Gone f s) (hr : runs step s as = some (s', es))
    {o : Nat} {b : Bool} : Ev.reached o (some (f, b)) ∉ es := by
  intro hm
  obtain ⟨pre, post, rfl⟩ := List.append_of_mem hm
  obtain ⟨as1, a, as2, s1, s2, p1, p2, q1, q2, rfl, k1, k2, k3, e1, e2⟩ := runs_split as _ _ pre _ post hr
  obtain ⟨rfl, rfl, rfl, rfl, hr⟩ := reached_step k2
  have hg := runs_inv (step := step) (Gone f) (fun s a s' es h hs => gone_step h hs) as1 s s1 p1 h k1
  cases hb : (s1.fd o).bind s1.tab with
  | none => rw [hb] at hr; simp at hr
  | some g =>
    rw [hb] at hr
    simp only [Option.map_some, Option.some.injEq, Prod.mk.injEq] at hr
    obtain ⟨rfl, _⟩ := hr
    cases hfd : s1.fd o with
    | none => rw [hfd] at hb; simp at hb
    | some n => rw [hfd] at hb; exact hg.off n hb

theorem closed_step {s s' : State} {a : Act} {p : Nat} {r : Closed} (h : step s a = some (s', [.closed p r])) (hr : r ≠ .ebadf) :
    ∃ n f, s.fd p = some n ∧ s.tab n = some f ∧ s'.tab = upd s.tab n none ∧ s'.next = s.next := by
  cases a with
  | close o err =>
    simp only [step] at h
    split at h
    · simp only [Option.some.injEq, Prod.mk.injEq, List.cons.injEq, Ev.closed.injEq, and_true] at h
      exact absurd h.2.2.symm hr
    · rename_i n hfd
      split at h
      · simp only [Option.some.injEq, Prod.mk.injEq, List.cons.injEq, Ev.closed.injEq, and_true] at h
        exact absurd h.2.2.symm hr
      · rename_i f ht
        split at h <;> simp only [Option.some.injEq, Prod.mk.injEq, List.cons.injEq, Ev.closed.injEq, and_true] at h <;>
          obtain ⟨rfl, rfl, rfl⟩ := h <;> exact ⟨n, f, hfd, ht, rfl, rfl⟩
  | _ =>
    exfalso
    simp only [step] at h
    repeat' split at h
    all_goals simp at h

/-- **C99 (negation)**: two objects stand for the same file and one of them is closed, with or without success. From then on no
operation of any object reaches that file, although the other object still stands for it. -/
theorem C99_closed_copy_lost {as bs : List Act} {s s1 s2 : State} {tr es : List Ev} {a : Act} {o p f : Nat} {r : Closed}
    (h : runs step State.init as = some (s, tr)) (hC : Careful tr) (ho : want tr o = some f) (hp : want tr p = some f) (hop : o ≠ p)
    (ha : step s a = some (s1, [.closed p r])) (hb : runs step s1 bs = some (s2, es)) :
    want (tr ++ [.closed p r]) o = some f ∧ ∀ q b, Ev.reached q (some (f, b)) ∉ es := by
  have hG := good_runs h hC
  refine ⟨?_, ?_⟩
  · rw [want_append]
    cases r <;> simp [note, upd_other _ _ hop, ho]
  · intro q b
    refine gone_runs ?_ hb
    rw [hG.want] at hp
    cases hfd : s.fd p with
    | none => rw [hfd] at hp; simp at hp
    | some n =>
      rw [hfd] at hp
      simp only [Option.bind_some] at hp
      have hr : r ≠ .ebadf := by
        rintro rfl
        cases a with
        | close o' err =>
          simp only [step] at ha
          split at ha
          · rename_i hfd'
            simp only [Option.some.injEq, Prod.mk.injEq, List.cons.injEq, Ev.closed.injEq, and_true] at ha
            obtain ⟨_, rfl⟩ := ha
            rw [hfd] at hfd'; cases hfd'
          · rename_i m hfd'
            split at ha
            · rename_i ht
              simp only [Option.some.injEq, Prod.mk.injEq, List.cons.injEq, Ev.closed.injEq, and_true] at ha
              obtain ⟨_, rfl⟩ := ha
              rw [hfd] at hfd'; cases hfd'
              rw [hp] at ht; cases ht
            · split at ha <;> simp at ha
        | _ =>
          simp only [step] at ha
          repeat' split at ha
          all_goals simp at ha
      obtain ⟨m, g, h1, h2, h3, h4⟩ := closed_step ha hr
      rw [hfd] at h1; cases h1
      rw [hp] at h2; cases h2
      refine ⟨by rw [h4]; exact hG.base.lt n f hp, fun m hm => ?_⟩
      rw [h3] at hm
      by_cases hmn : m = n
      · subst hmn; simp at hm
      · simp only [upd_other _ _ hmn] at hm
        exact hmn (hG.base.inj m n f hm hp)

/-- **C99 (negation)**: a copy of a closed object reads from the file that got the number next, and closing the copy closes that file
under the object that opened it: object 1 for file 3 and its copy 2; 1 is closed, 3 is opened for file 4; 2 reaches file 4; 2 is
closed; 3 reaches nothing. -/
theorem C99_wrong_file : (runs step State.init [.open 1 3 true true true, .copy 1 2, .close 1 false, .open 3 3 true true true, .io 2, .io 3,
      .close 2 false, .io 3]).map (·.2) =
    some [.opened 1 3, .copied 1 2, .closed 1 .ok, .opened 3 4, .reached 2 (some (4, true)), .reached 3 (some (4, true)), .closed 2 .ok,
      .reached 3 none] := by rfl

/-- **C99 (negation)**: the same without copies, when the kernel reports an error of the first `close`: the caller sees -1 and closes
again, which closes the file of another object. -/
theorem C99_close_error_repeated : (runs step State.init [.open 1 3 true true true, .close 1 true, .open 2 3 true true true, .close 1 false,
      .io 2]).map (·.2) =
    some [.opened 1 3, .closed 1 .err, .opened 2 4, .closed 1 .ok, .reached 2 none] := by rfl

/-- Proof device: an open descriptor no object has. (Concerns co_io.cpp:13-147, co_io.h:12-33.) -/
structure Orphan (n f : Nat) (s : State) : Prop where
  open' : s.tab n = some f
  ext : s.ext n = false
  off : ∀ o, s.fd o ≠ some n

theorem orphan_step {n f : Nat} {s s' : State} {a : Act} {es : List Ev} (h : Orphan n f s) (hs : step s a = some (s', es)) :
    Orphan n f s' := by
  cases a with
  | «open» o m nb get st =>
    simp only [step] at hs
    split at hs
    · rename_i ht
      simp only [Option.some.injEq, Prod.mk.injEq] at hs
      obtain ⟨rfl, rfl⟩ := hs
      have hmn : n ≠ m := by rintro rfl; rw [h.open'] at ht; cases ht
      refine ⟨by simp only [upd_other _ _ hmn]; exact h.open', by simp only [upd_other _ _ hmn]; exact h.ext, fun p hp => ?_⟩
      by_cases hpo : p = o
      · subst hpo
        simp only [upd_same] at hp
        split at hp
        · simp only [Option.some.injEq] at hp; exact hmn hp.symm
        · cases hp
      · simp only [upd_other _ _ hpo] at hp; exact h.off p hp
    · simp at hs
  | copy o p =>
    simp only [step, Option.some.injEq, Prod.mk.injEq] at hs
    obtain ⟨rfl, rfl⟩ := hs
    refine ⟨h.open', h.ext, fun q hq => ?_⟩
    by_cases hqp : q = p
    · subst hqp; simp only [upd_same] at hq; exact h.off o hq
    · simp only [upd_other _ _ hqp] at hq; exact h.off q hq
  | close o err =>
    simp only [step] at hs
    split at hs
    · simp only [Option.some.injEq, Prod.mk.injEq] at hs; obtain ⟨rfl, rfl⟩ := hs; exact h
    · rename_i m hfd
      have hmn : n ≠ m := by rintro rfl; exact h.off o hfd
      split at hs
      · simp only [Option.some.injEq, Prod.mk.injEq] at hs; obtain ⟨rfl, rfl⟩ := hs; exact h
      · split at hs <;> simp only [Option.some.injEq, Prod.mk.injEq] at hs <;> obtain ⟨rfl, rfl⟩ := hs
        · exact ⟨by simp only [upd_other _ _ hmn]; exact h.open', h.ext, h.off⟩
        · refine ⟨by simp only [upd_other _ _ hmn]; exact h.open', h.ext, fun q hq => ?_⟩
          by_cases hqo : q = o
          · subst hqo; simp at hq
          · simp only [upd_other _ _ hqo] at hq; exact h.off q hq
  | io o => simp only [step, Option.some.injEq, Prod.mk.injEq] at hs; obtain ⟨rfl, rfl⟩ := hs; exact h
  | setfl o arg va =>
    simp only [step] at hs
    split at hs <;> simp only [Option.some.injEq, Prod.mk.injEq] at hs <;> obtain ⟨rfl, rfl⟩ := hs
    · exact h
    · exact ⟨h.open', h.ext, h.off⟩
  | drop o =>
    simp only [step, Option.some.injEq, Prod.mk.injEq] at hs
    obtain ⟨rfl, rfl⟩ := hs
    refine ⟨h.open', h.ext, fun q hq => ?_⟩
    by_cases hqo : q = o
    · subst hqo; simp at hq
    · simp only [upd_other _ _ hqo] at hq; exact h.off q hq
  | extOpen m nb =>
    simp only [step] at hs
    split at hs
    · rename_i ht
      simp only [Option.some.injEq, Prod.mk.injEq] at hs
      obtain ⟨rfl, rfl⟩ := hs
      have hmn : n ≠ m := by rintro rfl; rw [h.open'] at ht; cases ht
      exact ⟨by simp only [upd_other _ _ hmn]; exact h.open', by simp only [upd_other _ _ hmn]; exact h.ext, h.off⟩
    · simp at hs
  | extClose m =>
    simp only [step] at hs
    split at hs
    · split at hs
      · rename_i he
        simp only [Option.some.injEq, Prod.mk.injEq] at hs
        obtain ⟨rfl, rfl⟩ := hs
        have hmn : n ≠ m := by rintro rfl; rw [h.ext] at he; cases he
        exact ⟨by simp only [upd_other _ _ hmn]; exact h.open', h.ext, h.off⟩
      · simp at hs
    · simp at hs

/-- **C99 (negation)**: when the only object for a file ends without having been closed, the file stays open for ever. -/
theorem C99_dropped_stays_open {as bs : List Act} {s s1 s2 : State} {tr es e1 : List Ev} {o f : Nat}
    (h : runs step State.init as = some (s, tr)) (hC : Careful tr) (ho : want tr o = some f) (hS : Sole (want tr) o)
    (ha : step s (.drop o) = some (s1, e1)) (hb : runs step s1 bs = some (s2, es)) : ∃ n, s2.tab n = some f := by
  have hG := good_runs h hC
  rw [hG.want] at ho
  cases hfd : s.fd o with
  | none => rw [hfd] at ho; simp at ho
  | some n =>
    rw [hfd] at ho
    simp only [Option.bind_some] at ho
    simp only [step, Option.some.injEq, Prod.mk.injEq] at ha
    obtain ⟨rfl, rfl⟩ := ha
    have hOr : Orphan n f { s with fd := upd s.fd o none } := by
      refine ⟨ho, hG.ext o n hfd, fun p hp => ?_⟩
      by_cases hpo : p = o
      · subst hpo; simp at hp
      · simp only [upd_other _ _ hpo] at hp
        exact hpo (sole_fd hG hS hfd ho hp)
    exact ⟨n, (runs_inv (step := step) (Orphan n f) (fun s a s' es h hs => orphan_step h hs) bs _ s2 es hOr hb).open'⟩

/-- **C99 (negation)**: when `fcntl` fails in `open`, `socket` or `accept`, the caller gets an object that reaches nothing, and the
new file stays open for ever. -/
theorem C99_failed_init {as bs : List Act} {s s1 s2 : State} {tr es e1 : List Ev} {o n : Nat} {nb get st : Bool}
    (h : runs step State.init as = some (s, tr)) (hC : Careful tr) (ha : step s (.open o n nb get st) = some (s1, e1))
    (hf : Ev.initFailed o ∈ e1) (hb : runs step s1 bs = some (s2, es)) :
    step s1 (.io o) = some (s1, [.reached o none]) ∧ ∃ f, Ev.opened o f ∈ e1 ∧ s2.tab n = some f := by
  have hG := good_runs h hC
  simp only [step] at ha
  split at ha
  · rename_i ht
    simp only [Option.some.injEq, Prod.mk.injEq] at ha
    obtain ⟨rfl, rfl⟩ := ha
    cases hg : (get && (nb || st)) with
    | true => rw [hg] at hf; simp at hf
    | false =>
      rw [hg] at hb
      simp only [Bool.false_eq_true, if_false] at hb ⊢
      refine ⟨by simp [step], s.next, by simp, ?_⟩
      refine (runs_inv (step := step) (Orphan n s.next) (fun s a s' es h hs => orphan_step h hs) bs _ s2 es ?_ hb).open'
      refine ⟨by simp, by simp, fun p hp => ?_⟩
      by_cases hpo : p = o
      · subst hpo; simp at hp
      · simp only [upd_other _ _ hpo] at hp
        exact hG.live p n hp ht
  · simp at ha

/-- Non-trivial case of the positive theorems: two objects, one of them copied, the copy ended before the object is closed. -/
example : (runs step State.init [.open 1 3 true true true, .open 2 4 false true true, .copy 1 5, .io 5, .io 2, .drop 5, .close 1 false,
      .close 2 false, .io 1]).map (fun p => (p.2, (p.1.tab 3, p.1.tab 4))) =
    some ([.opened 1 3, .opened 2 4, .copied 1 5, .reached 5 (some (3, true)), .reached 2 (some (4, true)), .dropped 5, .closed 1 .ok,
      .closed 2 .ok, .reached 1 none], (none, none)) := by rfl

/-! ## C100 -/

/-- Every file the library opened and an object has is non-blocking. (Concerns co_io.cpp:13-147, co_io.h:12-33.) -/
def Nb (s : State) : Prop := ∀ o n f, s.fd o = some n → s.tab n = some f → s.nb f = true

theorem nb_step {s s' : State} {a : Act} {es : List Ev} {w : Nat → Option Nat} (h : Good s w) (hN : Nb s) (hs : step s a = some (s', es))
    (hc : ∀ pre e post, es = pre ++ e :: post → careful (pre.foldl note w) e) (hf : ∀ o arg, Ev.setfl o arg ∉ es) : Nb s' := by
  cases a with
  | «open» o n nb get st =>
    simp only [step] at hs
    split at hs
    · rename_i ht
      simp only [Option.some.injEq, Prod.mk.injEq] at hs
      obtain ⟨rfl, rfl⟩ := hs
      cases hg : (get && (nb || st)) with
      | false => exact (hc [.opened o s.next] (.initFailed o) [] (by simp [hg])).elim
      | true =>
        intro p m f hp hm
        simp only [if_true, Bool.or_true] at hp hm ⊢
        by_cases hmn : m = n
        · subst hmn
          simp only [upd_same, Option.some.injEq] at hm
          subst hm; simp
        · simp only [upd_other _ _ hmn] at hm
          have hlt := h.base.lt m f hm
          have : f ≠ s.next := by omega
          simp only [upd_other _ _ this]
          by_cases hpo : p = o
          · subst hpo; simp at hp; exact absurd hp.symm hmn
          · exact hN p m f (by simpa only [upd_other _ _ hpo] using hp) hm
    · simp at hs
  | copy o p =>
    simp only [step, Option.some.injEq, Prod.mk.injEq] at hs
    obtain ⟨rfl, rfl⟩ := hs
    intro q m f hq hm
    by_cases hqp : q = p
    · subst hqp; exact hN o m f (by simpa using hq) hm
    · exact hN q m f (by simpa only [upd_other _ _ hqp] using hq) hm
  | close o err =>
    have hdel : ∀ n fd, (∀ q m, fd q = some m → s.fd q = some m) → Nb { s with tab := upd s.tab n none, fd := fd } := by
      intro n fd hfd q m f hq hm
      by_cases hmn : m = n
      · subst hmn; simp at hm
      · exact hN q m f (hfd q m hq) (by simpa only [upd_other _ _ hmn] using hm)
    simp only [step] at hs
    split at hs
    · simp only [Option.some.injEq, Prod.mk.injEq] at hs; obtain ⟨rfl, rfl⟩ := hs; exact hN
    · split at hs
      · simp only [Option.some.injEq, Prod.mk.injEq] at hs; obtain ⟨rfl, rfl⟩ := hs; exact hN
      · split at hs <;> simp only [Option.some.injEq, Prod.mk.injEq] at hs <;> obtain ⟨rfl, rfl⟩ := hs
        · exact hdel _ _ fun _ _ h => h
        · refine hdel _ _ fun q m hq => ?_
          by_cases hqo : q = o
          · subst hqo; simp at hq
          · simpa only [upd_other _ _ hqo] using hq
  | io o => simp only [step, Option.some.injEq, Prod.mk.injEq] at hs; obtain ⟨rfl, rfl⟩ := hs; exact hN
  | setfl o arg va =>
    simp only [step] at hs
    split at hs <;> simp only [Option.some.injEq, Prod.mk.injEq] at hs <;> obtain ⟨rfl, rfl⟩ := hs <;>
      exact absurd (List.mem_singleton.2 rfl) (hf o arg)
  | drop o =>
    simp only [step, Option.some.injEq, Prod.mk.injEq] at hs
    obtain ⟨rfl, rfl⟩ := hs
    intro q m f hq hm
    by_cases hqo : q = o
    · subst hqo; simp at hq
    · exact hN q m f (by simpa only [upd_other _ _ hqo] using hq) hm
  | extOpen n nb =>
    simp only [step] at hs
    split at hs
    · rename_i ht
      simp only [Option.some.injEq, Prod.mk.injEq] at hs
      obtain ⟨rfl, rfl⟩ := hs
      intro q m f hq hm
      have hmn : m ≠ n := by rintro rfl; exact h.live q m hq ht
      simp only [upd_other _ _ hmn] at hm
      have hlt := h.base.lt m f hm
      have : f ≠ s.next := by omega
      simp only [upd_other _ _ this]
      exact hN q m f hq hm
    · simp at hs
  | extClose n =>
    simp only [step] at hs
    split at hs
    · split at hs
      · simp only [Option.some.injEq, Prod.mk.injEq] at hs
        obtain ⟨rfl, rfl⟩ := hs
        intro q m f hq hm
        by_cases hmn : m = n
        · subst hmn; simp at hm
        · exact hN q m f hq (by simpa only [upd_other _ _ hmn] using hm)
      · simp at hs
    · simp at hs

/-- **C100 (partial)**: in a careful history without `fcntl(F_SETFL, ..)` every operation that reaches a file reaches one with
O_NONBLOCK, so it does not block the scheduling thread. -/
theorem C100_nonblocking_partial {as : List Act} {s : State} {tr : List Ev} (h : runs step State.init as = some (s, tr)) (hC : Careful tr)
    (hf : ∀ o arg, Ev.setfl o arg ∉ tr) {o f : Nat} {b : Bool} (he : Ev.reached o (some (f, b)) ∈ tr) : b = true := by
  obtain ⟨pre, post, rfl⟩ := List.append_of_mem he
  obtain ⟨as1, a, as2, s1, s2, p1, p2, q1, q2, rfl, k1, k2, k3, e1, e2⟩ := runs_split as _ _ pre _ post h
  obtain ⟨rfl, rfl, rfl, rfl, hr⟩ := reached_step k2
  rw [List.append_nil] at e1
  subst e1
  obtain ⟨hG, hN⟩ := careful_runs (fun s tr => (∀ o arg, Ev.setfl o arg ∉ tr) → Nb s) (fun _ o n f h => by simp [State.init] at h)
    (by
      intro s a s' es tr hG hP hs hC hf
      refine nb_step hG (hP fun o arg hm => hf o arg (by simp [hm])) hs ?_ (fun o arg hm => hf o arg (by simp [hm]))
      intro pre e post he
      have := hC (tr ++ pre) e post (by rw [he]; simp)
      rwa [want_append] at this) as1 s1 pre k1 (careful_pre hC)
  have hN := hN fun o arg hm => hf o arg (by simp [hm])
  cases hfd : s1.fd o with
  | none => rw [hfd] at hr; simp at hr
  | some n =>
    cases ht : s1.tab n with
    | none => rw [hfd] at hr; simp [ht] at hr
    | some g =>
      rw [hfd] at hr
      simp only [Option.bind_some, ht, Option.map_some, Option.some.injEq, Prod.mk.injEq] at hr
      rw [hr.2]
      exact hN o n g hfd ht

/-- **C100 (negation)**: what `fcntl(F_SETFL, arg)` does has nothing to do with `arg`. -/
theorem C100_argument_ignored (s : State) (o arg arg' va : Nat) :
    (step s (.setfl o arg va)).map (·.1) = (step s (.setfl o arg' va)).map (·.1) := by
  simp only [step]
  split <;> rfl

/-- **C100 (negation)**: whatever flags a program asks for, if bit 11 of the address of the `va_list` is 0, the next operation of
the object is a blocking one. -/
theorem C100_becomes_blocking {as : List Act} {s s1 : State} {tr e1 : List Ev} {o arg va f : Nat}
    (h : runs step State.init as = some (s, tr)) (hC : Careful tr) (ho : want tr o = some f) (hva : nonblock va = false)
    (ha : step s (.setfl o arg va) = some (s1, e1)) : step s1 (.io o) = some (s1, [.reached o (some (f, false))]) := by
  have hG := good_runs h hC
  rw [hG.want] at ho
  simp only [step, ho, Option.some.injEq, Prod.mk.injEq] at ha
  obtain ⟨rfl, rfl⟩ := ha
  simp [step, ho, hva]

/-- Non-trivial case: O_RDWR | O_NONBLOCK (04002) asked for, an address of the stack with bit 11 clear. -/
example : nonblock 0x802 = true ∧ nonblock 0x7ffd12345010 = false ∧
    (runs step State.init [.open 1 3 false true true, .io 1, .setfl 1 0x802 0x7ffd12345010, .io 1]).map (·.2) =
      some [.opened 1 3, .reached 1 (some (3, true)), .setfl 1 0x802, .reached 1 (some (3, false))] := by
  refine ⟨by decide, by decide, by rfl⟩

end Verif.Io.Fd
