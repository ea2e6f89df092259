import Verif.Monitor.Visible

/-!
# C125 for channels, semaphores, latches, wait groups and barriers

Which section of which coroutine is ordered before which: the k-th value enters a channel before it leaves; and so on.
-/

namespace Verif.Monitor
open Verif.Hb

section
variable {X : Type}

/-! ## Channels -/

theorem accVals_lin {α : Type} (es : Chan.Trace α) : Chan.accVals (es.filter Ev.isLin) = Chan.accVals es := by
  induction es with
  | nil => rfl
  | cons e es ih =>
    rcases e with ⟨t, k⟩ | l | ⟨t, r⟩
    · simpa [List.filter_cons, Ev.isLin, Chan.accVals] using ih
    · cases l <;> simp [List.filter_cons, Ev.isLin, Chan.accVals, ih]
    · simpa [List.filter_cons, Ev.isLin, Chan.accVals] using ih

theorem gotVals_lin {α : Type} (es : Chan.Trace α) : Chan.gotVals (es.filter Ev.isLin) = Chan.gotVals es := by
  induction es with
  | nil => rfl
  | cons e es ih =>
    rcases e with ⟨t, k⟩ | l | ⟨t, r⟩
    · simpa [List.filter_cons, Ev.isLin, Chan.gotVals] using ih
    · cases l <;> simp [List.filter_cons, Ev.isLin, Chan.gotVals, ih]
    · simpa [List.filter_cons, Ev.isLin, Chan.gotVals] using ih

theorem accVals_append {α : Type} (es fs : Chan.Trace α) : Chan.accVals (es ++ fs) = Chan.accVals es ++ Chan.accVals fs := by
  induction es with
  | nil => rfl
  | cons e es ih =>
    rcases e with ⟨t, k⟩ | l | ⟨t, r⟩
    · simpa [Chan.accVals] using ih
    · cases l <;> simp [Chan.accVals, ih]
    · simpa [Chan.accVals] using ih

theorem gotVals_append {α : Type} (es fs : Chan.Trace α) : Chan.gotVals (es ++ fs) = Chan.gotVals es ++ Chan.gotVals fs := by
  induction es with
  | nil => rfl
  | cons e es ih =>
    rcases e with ⟨t, k⟩ | l | ⟨t, r⟩
    · simpa [Chan.gotVals] using ih
    · cases l <;> simp [Chan.gotVals, ih]
    · simpa [Chan.gotVals] using ih

/-- The `k`-th value (from 0) to enter the channel is `x`; it is sent by `a` in the section at position `n`. (Concerns co_condition_variable.h:69-88, co_mutex.cpp:18-108.) -/
def Sent {α : Type} (tr : Tr Unit (Loc (Chan.Lin α) X)) (k : Nat) (x : α) (n : Nat) (a : Tid) : Prop :=
  (∃ l, tr[n]? = some (a, .wr (.data l))) ∧ (Chan.accVals (secEvs (tr.take n))).length ≤ k ∧ (Chan.accVals (secEvs (tr.take (n + 1))))[k]? = some x

/-- The `k`-th value (from 0) to leave the channel is `x`; it is received by `b` in the section at position `m`. (Concerns co_condition_variable.h:69-88, co_mutex.cpp:18-108.) -/
def Received {α : Type} (tr : Tr Unit (Loc (Chan.Lin α) X)) (k : Nat) (x : α) (m : Nat) (b : Tid) : Prop :=
  (∃ l, tr[m]? = some (b, .wr (.data l))) ∧ (Chan.gotVals (secEvs (tr.take m))).length ≤ k ∧ (Chan.gotVals (secEvs (tr.take (m + 1))))[k]? = some x

/-- **C125 (messages publish).** The `k`-th value received is the `k`-th value sent, and everything the sender did before it sent it (its
accesses to any data, at `i`) happens before everything the receiver does after it has received it (at `j`). -/
theorem C125_channel_publishes {α : Type} (kd : Chan.Kind) (as : List (VAct (Chan.Op α) X))
    (v : Obs (Chan.Ch α) Chan.Cv (Chan.Op α) (Chan.Res α) (Chan.Lin α)) (tr : Tr Unit (Loc (Chan.Lin α) X))
    (h : runs (vstep (Chan.obj kd)) (Obs.init Chan.Ch.init) as = some (v, tr)) (hc : Chan.Client v.es)
    (k n m : Nat) (a b : Tid) (x y : α) (hn : Sent tr k x n a) (hm : Received tr k y m b) :
    x = y ∧ ∀ i j p q, tr[i]? = some (a, p) → tr[j]? = some (b, q) → i < n → m < j → HB tr i j := by
  obtain ⟨⟨ln, hn⟩, hn1, hn2⟩ := hn
  obtain ⟨⟨lm, hm⟩, hm1, hm2⟩ := hm
  have hmlt := (List.getElem?_eq_some_iff.1 hm).1
  obtain ⟨bs, f, es, es2, hb, he, hv⟩ := vrun_at h (m + 1) (by omega)
  have hfifo := (C37_channel_real_mutex kd bs f es hb (fun t k hk => hc t k (by rw [hv]; exact List.mem_append_left _ hk))).2.1
  rw [← accVals_lin es, ← gotVals_lin es, he] at hfifo
  have hy : (Chan.accVals (secEvs (tr.take (m + 1)) : Chan.Trace α))[k]? = some y := by
    rw [← hfifo, List.getElem?_append_left (List.getElem?_eq_some_iff.1 hm2).1]; exact hm2
  have hnm : n ≤ m := by
    apply Decidable.byContradiction
    intro hlt
    obtain ⟨es3, he3⟩ := secEvs_take_le (K := Chan.Op α) (V := Chan.Res α) (tr := tr) (l := m + 1) (n := n) (by omega)
    rw [he3, accVals_append, List.length_append] at hn1
    have := (List.getElem?_eq_some_iff.1 hy).1
    omega
  refine ⟨?_, fun i j p q hi hj h1 h2 => C125_sections_order _ _ as v tr h i n m j a b p q ln lm hi hn hm hj h1 hnm h2⟩
  obtain ⟨es3, he3⟩ := secEvs_take_le (K := Chan.Op α) (V := Chan.Res α) (tr := tr) (l := n + 1) (n := m + 1) (by omega)
  rw [he3, accVals_append, List.getElem?_append_left (List.getElem?_eq_some_iff.1 hn2).1, hn2] at hy
  exact Option.some.inj hy

/-- **C125 (room publishes).** In a channel of capacity `c` everything the receiver of the `k`-th value did before it received it happens before
everything the sender of the `k + c`-th value does after it has sent it: the sender had to wait for the room. -/
theorem C125_capacity_publishes {α : Type} (c : Nat) (as : List (VAct (Chan.Op α) X))
    (v : Obs (Chan.Ch α) Chan.Cv (Chan.Op α) (Chan.Res α) (Chan.Lin α)) (tr : Tr Unit (Loc (Chan.Lin α) X))
    (h : runs (vstep (Chan.obj (.fixed c))) (Obs.init Chan.Ch.init) as = some (v, tr)) (hc : Chan.Client v.es)
    (k n m : Nat) (a b : Tid) (x y : α) (hn : Sent tr (k + c) x n a) (hm : Received tr k y m b) (i j : Nat)
    (p q : Op Unit (Loc (Chan.Lin α) X)) (hi : tr[i]? = some (b, p)) (hj : tr[j]? = some (a, q)) (h1 : i < m) (h2 : n < j) : HB tr i j := by
  obtain ⟨⟨ln, hn⟩, hn1, hn2⟩ := hn
  obtain ⟨⟨lm, hm⟩, hm1, hm2⟩ := hm
  have hnlt := (List.getElem?_eq_some_iff.1 hn).1
  obtain ⟨bs, f, es, es2, hb, he, hv⟩ := vrun_at h (n + 1) (by omega)
  obtain ⟨_, hfifo, hcap, _⟩ := C37_channel_real_mutex (.fixed c) bs f es hb (fun t k hk => hc t k (by rw [hv]; exact List.mem_append_left _ hk))
  have hcap := hcap c rfl
  rw [← accVals_lin es, ← gotVals_lin es, he] at hfifo
  refine C125_sections_order _ _ as v tr h i m n j b a p q lm ln hi hm hn hj h1 ?_ h2
  apply Decidable.byContradiction
  intro hlt
  have h3 := (List.getElem?_eq_some_iff.1 hn2).1
  have h4 := congrArg List.length hfifo
  rw [List.length_append] at h4
  obtain ⟨es3, he3⟩ := secEvs_take_le (K := Chan.Op α) (V := Chan.Res α) (tr := tr) (l := n + 1) (n := m) (by omega)
  rw [he3, gotVals_append, List.length_append] at hm1
  omega

/-- `t` runs `n` steps; not in the library. (Concerns co_condition_variable.h:69-88, co_mutex.cpp:18-108.) -/
def steps {K : Type} (t : Tid) (n : Nat) : List (VAct K X) := List.replicate n (.lib (.run t true))

/-- Coroutine 1 writes its data 7 and sends 5 through a channel of capacity 1; 2 receives it and reads the data; not in the library. (Concerns co_condition_variable.h:69-88, co_mutex.cpp:18-108.) -/
def handover : List (VAct (Chan.Op Nat) Nat) :=
  [.own 1 true 7, .lib (.call 1 (.push 5))] ++ steps 1 13 ++ [.lib (.call 2 .pop)] ++ steps 2 13 ++ [.own 2 false 7]

/-- The write happens before the read, as the theorem says of this trace. -/
example : ∃ v tr, runs (vstep (Chan.obj (.fixed 1))) (Obs.init Chan.Ch.init) handover = some (v, tr) ∧
    tr = [(1, .wr (.own 7)), (1, .acq ()), (1, .rel ()), (1, .wr (.data [.accepted 1 5])), (1, .acq ()), (1, .rel ()),
      (2, .acq ()), (2, .rel ()), (2, .wr (.data [.got 2 5])), (2, .acq ()), (2, .rel ()), (2, .rd (.own 7))] ∧
    Sent tr 0 5 3 1 ∧ Received tr 0 5 8 2 ∧ HB tr 0 11 := by
  have h : ∃ v, runs (vstep (Chan.obj (.fixed 1))) (Obs.init Chan.Ch.init) handover = some (v,
      [(1, .wr (.own 7)), (1, .acq ()), (1, .rel ()), (1, .wr (.data [.accepted 1 5])), (1, .acq ()), (1, .rel ()),
      (2, .acq ()), (2, .rel ()), (2, .wr (.data [.got 2 5])), (2, .acq ()), (2, .rel ()), (2, .rd (.own 7))]) ∧
      v.es = [.call 1 (.push 5), .lin (.accepted 1 5), .ret 1 (.pushed true), .call 2 .pop, .lin (.got 2 5), .ret 2 (.popped (some 5))] :=
    ⟨_, rfl, rfl⟩
  obtain ⟨v, hv, hes⟩ := h
  have h1 : Sent (X := Nat) [(1, .wr (.own 7)), (1, .acq ()), (1, .rel ()), (1, .wr (.data [.accepted 1 5])), (1, .acq ()), (1, .rel ()),
      (2, .acq ()), (2, .rel ()), (2, .wr (.data [.got 2 5])), (2, .acq ()), (2, .rel ()), (2, .rd (.own 7))] 0 5 3 1 :=
    ⟨⟨_, rfl⟩, by decide, rfl⟩
  have h2 : Received (X := Nat) [(1, .wr (.own 7)), (1, .acq ()), (1, .rel ()), (1, .wr (.data [.accepted 1 5])), (1, .acq ()), (1, .rel ()),
      (2, .acq ()), (2, .rel ()), (2, .wr (.data [.got 2 5])), (2, .acq ()), (2, .rel ()), (2, .rd (.own 7))] 0 5 8 2 :=
    ⟨⟨_, rfl⟩, by decide, rfl⟩
  refine ⟨v, _, hv, rfl, h1, h2, ?_⟩
  refine (C125_channel_publishes (.fixed 1) handover v _ hv ?_ 0 3 8 1 2 5 5 h1 h2).2 0 11 _ _ rfl rfl (by decide) (by decide)
  intro t k hk
  rw [hes] at hk
  simp only [List.mem_cons, List.not_mem_nil, or_false, reduceCtorEq, false_or, Ev.call.injEq] at hk
  rcases hk with ⟨rfl, rfl⟩ | ⟨rfl, rfl⟩ <;> simp [Chan.Op.callable]

/-- The same, but coroutine 1 writes once more after it has sent; not in the library. (Concerns co_condition_variable.h:69-88, co_mutex.cpp:18-108.) -/
def tooLate : List (VAct (Chan.Op Nat) Nat) :=
  [.lib (.call 1 (.push 5))] ++ steps 1 13 ++ [.own 1 true 7, .lib (.call 2 .pop)] ++ steps 2 13 ++ [.own 2 false 7]

/-- **C125, the limit.** What the sender does after it has sent is not ordered with what the receiver does: there is a data race. -/
theorem C125_after_send_races : ∃ v tr, runs (vstep (Chan.obj (.fixed 1))) (Obs.init Chan.Ch.init) tooLate = some (v, tr) ∧
    Race tr (.own 7) := by
  refine ⟨_, [(1, .acq ()), (1, .rel ()), (1, .wr (.data [.accepted 1 5])), (1, .acq ()), (1, .rel ()), (1, .wr (.own 7)),
      (2, .acq ()), (2, .rel ()), (2, .wr (.data [.got 2 5])), (2, .acq ()), (2, .rel ()), (2, .rd (.own 7))], rfl, ?_⟩
  refine ⟨5, 11, 1, 2, _, _, by decide, rfl, rfl, by decide, .inr rfl, .inl rfl, .inl rfl, ?_⟩
  refine not_hb (fun i => i = 5) ?_ rfl (by decide)
  rintro i j a p b q rfl hj h1 h2 h3
  simp only [List.getElem?_cons_succ, List.getElem?_cons_zero, Option.some.injEq, Prod.mk.injEq] at h1
  obtain ⟨rfl, rfl⟩ := h1
  have hlt := (List.getElem?_eq_some_iff.1 h2).1
  simp only [List.length_cons, List.length_nil] at hlt
  have : j = 6 ∨ j = 7 ∨ j = 8 ∨ j = 9 ∨ j = 10 ∨ j = 11 := by omega
  rcases this with rfl | rfl | rfl | rfl | rfl | rfl <;> simp at h2 <;> obtain ⟨rfl, rfl⟩ := h2 <;> simp at h3

/-- A full channel of capacity 1: coroutine 1 sleeps in its second `push`; 2 writes its data 7 and takes the first value; 1 goes on and reads
the data. The write happens before the read. -/
example : ∃ v tr, runs (vstep (Chan.obj (.fixed 1))) (Obs.init Chan.Ch.init) ([.lib (.call 1 (.push 5))] ++ steps 1 13 ++
      [.lib (.call 1 (.push 6))] ++ steps 1 14 ++ [.own 2 true 7, .lib (.call 2 .pop)] ++ steps 2 14 ++ steps 1 14 ++ [.own 1 false 7]) = some (v, tr) ∧
    Sent (X := Nat) (α := Nat) tr (0 + 1) 6 18 1 ∧ Received tr 0 5 13 2 ∧ tr[10]? = some (2, .wr (.own 7)) ∧ tr[21]? = some (1, .rd (.own 7)) :=
  ⟨_, _, rfl, ⟨⟨_, rfl⟩, by decide, rfl⟩, ⟨⟨_, rfl⟩, by decide, rfl⟩, rfl, rfl⟩

/-! ## Semaphores -/

theorem given_lin (es : Semaphore.Trace) : Semaphore.given (es.filter Ev.isLin) = Semaphore.given es := by
  simp only [Semaphore.given, List.countP_filter]
  congr 1; funext e; rcases e with _ | l | _ <;> simp [Ev.isLin]

theorem taken_lin (es : Semaphore.Trace) : Semaphore.taken (es.filter Ev.isLin) = Semaphore.taken es := by
  simp only [Semaphore.taken, List.countP_filter]
  congr 1; funext e; rcases e with _ | l | _ <;> simp [Ev.isLin]

/-- The `k`-th permit (from 0) to be put back is put back by `a` in the section at position `n`. (Concerns co_condition_variable.h:69-88, co_mutex.cpp:18-108.) -/
def Given (tr : Tr Unit (Loc Semaphore.Lin X)) (k n : Nat) (a : Tid) : Prop :=
  (∃ l, tr[n]? = some (a, .wr (.data l))) ∧ Semaphore.given (secEvs (tr.take n)) = k ∧ Semaphore.given (secEvs (tr.take (n + 1))) = k + 1

/-- The `k`-th permit (from 0) to be taken is taken by `b` in the section at position `m`. (Concerns co_condition_variable.h:69-88, co_mutex.cpp:18-108.) -/
def Taken (tr : Tr Unit (Loc Semaphore.Lin X)) (k m : Nat) (b : Tid) : Prop :=
  (∃ l, tr[m]? = some (b, .wr (.data l))) ∧ Semaphore.taken (secEvs (tr.take m)) = k ∧ Semaphore.taken (secEvs (tr.take (m + 1))) = k + 1

/-- **C125 (permits publish).** In a semaphore with `d` permits at first, everything done before the `k`-th permit was put back happens before
everything done after the `d + k`-th permit was taken. With `d = 0`: a release publishes to the acquire it enables. -/
theorem C125_semaphore_publishes (M d : Int) (hd : 0 ≤ d ∧ d ≤ M) (as : List (VAct Semaphore.Op X))
    (v : Obs Int Semaphore.Cv Semaphore.Op Bool Semaphore.Lin) (tr : Tr Unit (Loc Semaphore.Lin X))
    (h : runs (vstep (Semaphore.obj M)) (Obs.init d) as = some (v, tr))
    (k k' n m : Nat) (a b : Tid) (hn : Given tr k n a) (hm : Taken tr k' m b) (hk : d + k ≤ k') (i j : Nat)
    (p q : Op Unit (Loc Semaphore.Lin X)) (hi : tr[i]? = some (a, p)) (hj : tr[j]? = some (b, q)) (h1 : i < n) (h2 : m < j) : HB tr i j := by
  obtain ⟨⟨ln, hn⟩, hn1, hn2⟩ := hn
  obtain ⟨⟨lm, hm⟩, hm1, hm2⟩ := hm
  have hmlt := (List.getElem?_eq_some_iff.1 hm).1
  obtain ⟨bs, f, es, es2, hb, he, hv⟩ := vrun_at h (m + 1) (by omega)
  obtain ⟨_, ⟨hc1, hc2, _⟩, _⟩ := C24_semaphore_real_mutex M d hd bs f es hb
  rw [← given_lin es, ← taken_lin es, he, hm2] at hc1
  refine C125_sections_order _ _ as v tr h i n m j a b p q ln lm hi hn hm hj h1 ?_ h2
  apply Decidable.byContradiction
  intro hlt
  obtain ⟨es3, he3⟩ := secEvs_take_le (K := Semaphore.Op) (V := Bool) (tr := tr) (l := m + 1) (n := n) (by omega)
  have h3 : Semaphore.given (secEvs (tr.take n)) = Semaphore.given (secEvs (tr.take (m + 1))) + Semaphore.given es3 := by
    rw [he3]; simp [Semaphore.given]
  push_cast at hc1
  omega

/-- A semaphore of 0: coroutine 2 sleeps in `acquire`, 1 writes its data 7 and releases, 2 goes on and reads the data. -/
example : ∃ v tr, runs (vstep (Semaphore.obj 1)) (Obs.init 0) ([.lib (.call 2 .acquire)] ++ steps 2 14 ++
      [.own 1 true 7, .lib (.call 1 (.release 0))] ++ steps 1 14 ++ steps 2 14 ++ [.own 2 false 7]) = some (v, tr) ∧
    Given (X := Nat) tr 0 8 1 ∧ Taken tr 0 13 2 ∧ tr[5]? = some (1, .wr (.own 7)) ∧ tr[16]? = some (2, .rd (.own 7)) :=
  ⟨_, _, rfl, ⟨⟨_, rfl⟩, by decide, by decide⟩, ⟨⟨_, rfl⟩, by decide, by decide⟩, rfl, rfl⟩

/-! ## Latches -/

theorem counted_lin (es : Latch.Trace) : Latch.counted (es.filter Ev.isLin) = Latch.counted es := by
  induction es with
  | nil => rfl
  | cons e es ih =>
    simp only [Latch.counted] at ih ⊢
    rcases e with _ | l | _ <;> simp [List.filter_cons, Ev.isLin, ih]

/-- **C125 (latches publish).** Everything done before something was counted down happens before everything done after `wait()` has passed. -/
theorem C125_latch_publishes (e : Int) (he0 : 0 ≤ e) (as : List (VAct Latch.Op X)) (v : Obs Int Unit Latch.Op Latch.Res Latch.Lin)
    (tr : Tr Unit (Loc Latch.Lin X)) (h : runs (vstep Latch.obj) (Obs.init e) as = some (v, tr))
    (n m c : Nat) (a b : Tid) (hn : tr[n]? = some (a, .wr (.data [.down a c]))) (hc : 0 < c)
    (hm : tr[m]? = some (b, .wr (.data [.passed b]))) (i j : Nat)
    (p q : Op Unit (Loc Latch.Lin X)) (hi : tr[i]? = some (a, p)) (hj : tr[j]? = some (b, q)) (h1 : i < n) (h2 : m < j) : HB tr i j := by
  have hmlt := (List.getElem?_eq_some_iff.1 hm).1
  have hnlt := (List.getElem?_eq_some_iff.1 hn).1
  refine C125_sections_order _ _ as v tr h i n m j a b p q _ _ hi hn hm hj h1 ?_ h2
  apply Decidable.byContradiction
  intro hlt
  -- at `m` everything is counted down
  obtain ⟨bs, f, es, es2, hb, he, hv⟩ := vrun_at h (m + 1) (by omega)
  rw [secEvs_take_succ hm] at he
  obtain ⟨_, bs', hb'⟩ := Full.sim_init hb
  obtain ⟨pre, post, hes, hpre⟩ : ∃ pre post, es = pre ++ .lin (.passed b) :: post ∧ pre.filter Ev.isLin = secEvs (tr.take m) := by
    clear hb hb' hv
    simp only [List.map_cons, List.map_nil] at he
    obtain ⟨l1, l2, rfl, h3, h4⟩ := List.filter_eq_append_iff.1 he
    obtain ⟨l3, l4, rfl, h5, h6, h7⟩ := List.filter_eq_cons_iff.1 h4
    exact ⟨l1 ++ l3, l4, by simp, by rw [List.filter_append, h3, List.filter_eq_nil_iff.2 h5, List.append_nil]⟩
  have h3 := Latch.C26_passes_only_at_zero e he0 bs' f.low es pre post b hb' hes
  rw [← counted_lin, hpre] at h3
  -- after `n` more than everything would be
  obtain ⟨cs, g, fs, fs2, hcs, hfs, _⟩ := vrun_at h (n + 1) (by omega)
  obtain ⟨_, cs', hcs'⟩ := Full.sim_init hcs
  obtain ⟨q', hq, hR⟩ := Latch.sim_reach e he0 cs' g.low fs hcs'
  have h4 := Latch.counted_spec fs _ _ hq
  have h5 := hR.nonneg
  rw [← hR.left, h4, ← counted_lin, hfs, secEvs_take_succ hn, Latch.counted_append] at h5
  obtain ⟨es3, he3⟩ := secEvs_take_le (K := Latch.Op) (V := Latch.Res) (tr := tr) (l := m) (n := n) (by omega)
  rw [he3, Latch.counted_append, h3] at h5
  have h6 : 0 ≤ Latch.counted es3 := by
    clear h5 he3
    induction es3 with
    | nil => simp [Latch.counted]
    | cons z es3 ih =>
      have h7 := Latch.counted_append [z] es3
      have h8 : 0 ≤ Latch.counted [z] := by simp only [Latch.counted, List.map_cons, List.map_nil, List.sum_cons, List.sum_nil]; split <;> omega
      simp only [List.singleton_append] at h7
      omega
  simp [Latch.counted, Latch.Q.init] at h5 h6
  omega

/-- A latch of 1: coroutine 2 sleeps in `wait`, 1 writes its data 7 and counts down, 2 goes on and reads the data. -/
example : ∃ v tr, runs (vstep Latch.obj) (Obs.init 1) ([.lib (.call 2 .wait)] ++ steps 2 14 ++
      [.own 1 true 7, .lib (.call 1 (.countDown 1))] ++ steps 1 15 ++ steps 2 11 ++ [.own 2 false 7]) = some (v, tr) ∧
    tr[8]? = some (1, .wr (.data [.down 1 1])) ∧ tr[13]? = some (2, .wr (.data [.passed 2])) ∧
    tr[5]? = some (1, .wr (.own (7 : Nat))) ∧ tr[16]? = some (2, .rd (.own 7)) :=
  ⟨_, _, rfl, rfl, rfl, rfl, rfl⟩

/-! ## Wait groups -/

theorem dones_lin (es : WaitGroup.Trace) : WaitGroup.dones (es.filter Ev.isLin) = WaitGroup.dones es := by
  simp only [WaitGroup.dones, List.countP_filter]
  congr 1; funext e; rcases e with _ | l | _ <;> simp [Ev.isLin]

/-- **C125 (wait groups publish).** Everything done before one of the `c` first `done()`s of a wait group of `c` happens before everything
done after `wait()` has passed. -/
theorem C125_wait_group_publishes (c : Nat) (as : List (VAct WaitGroup.Op X)) (v : Obs Nat Unit WaitGroup.Op WaitGroup.Res WaitGroup.Lin)
    (tr : Tr Unit (Loc WaitGroup.Lin X)) (h : runs (vstep (WaitGroup.obj c)) (Obs.init 0) as = some (v, tr))
    (n m : Nat) (a b : Tid) (hn : tr[n]? = some (a, .wr (.data [.fin a]))) (hc : WaitGroup.dones (secEvs (tr.take n)) < c)
    (hm : tr[m]? = some (b, .wr (.data [.passed b]))) (i j : Nat)
    (p q : Op Unit (Loc WaitGroup.Lin X)) (hi : tr[i]? = some (a, p)) (hj : tr[j]? = some (b, q)) (h1 : i < n) (h2 : m < j) : HB tr i j := by
  have hmlt := (List.getElem?_eq_some_iff.1 hm).1
  refine C125_sections_order _ _ as v tr h i n m j a b p q _ _ hi hn hm hj h1 ?_ h2
  apply Decidable.byContradiction
  intro hlt
  obtain ⟨bs, f, es, es2, hb, he, hv⟩ := vrun_at h (m + 1) (by omega)
  rw [secEvs_take_succ hm] at he
  obtain ⟨pre, post, hes, hpre⟩ : ∃ pre post, es = pre ++ .lin (.passed b) :: post ∧ pre.filter Ev.isLin = secEvs (tr.take m) := by
    clear hb hv
    simp only [List.map_cons, List.map_nil] at he
    obtain ⟨l1, l2, rfl, h3, h4⟩ := List.filter_eq_append_iff.1 he
    obtain ⟨l3, l4, rfl, h5, h6, h7⟩ := List.filter_eq_cons_iff.1 h4
    exact ⟨l1 ++ l3, l4, by simp, by rw [List.filter_append, h3, List.filter_eq_nil_iff.2 h5, List.append_nil]⟩
  have h3 := (C27_wait_group_real_mutex c bs f es hb).2.1 pre post b hes
  rw [← dones_lin, hpre] at h3
  obtain ⟨es3, he3⟩ := secEvs_take_le (K := WaitGroup.Op) (V := WaitGroup.Res) (tr := tr) (l := m) (n := n) (by omega)
  rw [he3] at hc
  simp only [WaitGroup.dones, List.countP_append] at hc h3
  omega

/-- A wait group of 1: coroutine 2 sleeps in `wait`, 1 writes its data 7 and is done, 2 goes on and reads the data. -/
example : ∃ v tr, runs (vstep (WaitGroup.obj 1)) (Obs.init 0) ([.lib (.call 2 .wait)] ++ steps 2 14 ++
      [.own 1 true 7, .lib (.call 1 .done)] ++ steps 1 15 ++ steps 2 11 ++ [.own 2 false 7]) = some (v, tr) ∧
    tr[8]? = some (1, .wr (.data [.fin 1])) ∧ WaitGroup.dones (secEvs (tr.take 8)) < 1 ∧ tr[13]? = some (2, .wr (.data [.passed 2])) ∧
    tr[5]? = some (1, .wr (.own (7 : Nat))) ∧ tr[16]? = some (2, .rd (.own 7)) :=
  ⟨_, _, rfl, rfl, by decide, rfl, rfl, rfl⟩

/-! ## Barriers -/

theorem waitedIn_lin (g : Int) (es : Barrier.Trace) : Barrier.waitedIn g (es.filter Ev.isLin) = Barrier.waitedIn g es := by
  induction es with
  | nil => rfl
  | cons e es ih =>
    simp only [Barrier.waitedIn] at ih ⊢
    rcases e with _ | l | _ <;> simp [List.filter_cons, Ev.isLin, ih]

/-- **C125 (barriers publish).** Everything done before a `wait()` of a phase happens before everything done after a `wait()` of this phase has
been released. -/
theorem C125_barrier_publishes (M : Int) (hM : 0 < M) (as : List (VAct Barrier.Op X)) (v : Obs Barrier.B Unit Barrier.Op Barrier.Res Barrier.Lin)
    (tr : Tr Unit (Loc Barrier.Lin X)) (h : runs (vstep (Barrier.obj M)) (Obs.init (Barrier.B.init M)) as = some (v, tr))
    (hcl : Barrier.Clients v.es) (n m c : Nat) (g : Int) (hg : 0 ≤ g) (a b : Tid) (l l' : List Barrier.Lin)
    (hn : tr[n]? = some (a, .wr (.data l))) (hl : Barrier.Lin.waited a g c ∈ l) (hc : 0 < c)
    (hm : tr[m]? = some (b, .wr (.data l'))) (hl' : Barrier.Lin.released b g ∈ l') (i j : Nat)
    (p q : Op Unit (Loc Barrier.Lin X)) (hi : tr[i]? = some (a, p)) (hj : tr[j]? = some (b, q)) (h1 : i < n) (h2 : m < j) : HB tr i j := by
  have hmlt := (List.getElem?_eq_some_iff.1 hm).1
  have hnlt := (List.getElem?_eq_some_iff.1 hn).1
  refine C125_sections_order _ _ as v tr h i n m j a b p q l l' hi hn hm hj h1 ?_ h2
  apply Decidable.byContradiction
  intro hlt
  -- after `m` everybody has arrived
  obtain ⟨bs, f, es, es2, hb, he, hv⟩ := vrun_at h (m + 1) (by omega)
  have hmem : Ev.lin (.released b g) ∈ es := by
    have h3 : Ev.lin (.released b g) ∈ es.filter Ev.isLin := by
      rw [he, secEvs_take_succ hm]; exact List.mem_append_right _ (List.mem_map.2 ⟨_, hl', rfl⟩)
    exact (List.mem_filter.1 h3).1
  obtain ⟨pre, post, rfl⟩ := List.append_of_mem hmem
  have hcl1 : Barrier.Clients (pre ++ Ev.lin (.released b g) :: post) := fun t k hk => hcl t k (by rw [hv]; exact List.mem_append_left _ hk)
  have h3 := (C29_barrier_real_mutex M hM bs f _ hb hcl1).2.1 pre post b g rfl hg
  have h4 : M ≤ Barrier.waitedIn g (secEvs (tr.take (m + 1))) := by
    rw [← he, waitedIn_lin, Barrier.waitedIn_append, h3]
    have := Barrier.waitedIn_nonneg g (Ev.lin (.released b g) :: post)
    omega
  -- after `n` it would be one too many
  obtain ⟨cs, f', fs, fs2, hcs, hfs, hv'⟩ := vrun_at h (n + 1) (by omega)
  obtain ⟨_, cs', hcs'⟩ := Full.sim_init hcs
  obtain ⟨q', hq, _⟩ := Barrier.sim_reach M hM cs' f'.low fs hcs' (fun t k hk => hcl t k (by rw [hv']; exact List.mem_append_left _ hk))
  have hA := Barrier.acct_spec M hM fs q' hq
  have h5 : Barrier.waitedIn g fs ≤ M := by
    obtain ⟨r1, r2, r3⟩ := hA.range
    rcases Int.lt_trichotomy g q'.phase with h6 | rfl | h6
    · exact Int.le_of_eq (hA.past g hg h6)
    · rw [hA.now]; omega
    · rw [hA.future g h6]; omega
  obtain ⟨es3, he3⟩ := secEvs_take_le (K := Barrier.Op) (V := Barrier.Res) (tr := tr) (l := m + 1) (n := n) (by omega)
  rw [← waitedIn_lin, hfs, secEvs_take_succ hn, he3, Barrier.waitedIn_append, Barrier.waitedIn_append] at h5
  have h6 := Barrier.waitedIn_nonneg g es3
  obtain ⟨l1, l2, rfl⟩ := List.append_of_mem hl
  rw [List.map_append, List.map_cons, Barrier.waitedIn_append] at h5
  have h7 := Barrier.waitedIn_nonneg g (l1.map Ev.lin)
  have h8 := Barrier.waitedIn_append g [Ev.lin (.waited a g c)] (l2.map Ev.lin)
  have h9 := Barrier.waitedIn_nonneg g (l2.map Ev.lin)
  have h10 : Barrier.waitedIn g [Ev.lin (.waited a g c)] = c := by simp [Barrier.waitedIn]
  simp only [List.singleton_append] at h8
  omega

/-- A barrier of 2: each of two coroutines writes its own data, arrives, and reads the other's data after it has been released. -/
example : ∃ v tr, runs (vstep (Barrier.obj 2)) (Obs.init (Barrier.B.init 2)) ([.own 2 true 8, .lib (.call 2 .arriveWait)] ++ steps 2 24 ++
      [.own 1 true 7, .lib (.call 1 .arriveWait)] ++ steps 1 25 ++ [.own 1 false 8] ++ steps 2 11 ++ [.own 2 false 7]) = some (v, tr) ∧
    tr[8]? = some (2, .wr (.data [.waited 2 0 1])) ∧ tr[19]? = some (1, .wr (.data [.waited 1 0 1, .released 1 0])) ∧
    tr[25]? = some (2, .wr (.data [.released 2 0])) ∧ tr[0]? = some (2, .wr (.own (8 : Nat))) ∧ tr[11]? = some (1, .wr (.own 7)) ∧
    tr[22]? = some (1, .rd (.own 8)) ∧ tr[28]? = some (2, .rd (.own 7)) :=
  ⟨_, _, rfl, rfl, rfl, rfl, rfl, rfl, rfl, rfl⟩

end
end Verif.Monitor
