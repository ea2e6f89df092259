import Verif.Monitor.FullObjs
import Verif.Sync.MutexHb

/-!
# C125: what was done before a message was sent is visible after it was received

The monitor objects on top of the real mutex (Verif/Monitor/Full.lean), together with the ordinary memory accesses of the coroutines that use
them. A trace has, in the order of the interleaving, the lock operations of the mutex's internal spinlock, the critical sections, and the
clients' accesses to whatever data they like, outside the calls. Happens-before is that of Verif/Base/Hb.lean: program order and
"unlock synchronises with the next lock", of that one spinlock.

Simplified: that a coroutine which moves to another thread keeps its program order (the thread that saves it and the one that resumes it
synchronise on the locks of the scheduler) is part of `Po`; the spinlocks of the condition variables synchronise too, but nothing here
needs it.
-/

namespace Verif.Monitor
open Verif.Hb

/-- What is accessed: by a critical section the data of the object, and what the section does; by a client its own data. (Concerns co_condition_variable.h:69-88, co_mutex.cpp:18-108.) -/
inductive Loc (E X : Type)
  | data (es : List E)
  | own (x : X)
  deriving DecidableEq, Repr

/-- The data of the object is accessed only under its mutex (e.g. co_chan.h:71-97). -/
def Loc.guarded {E X : Type} : Loc E X → Bool
  | .data _ => true
  | .own _ => false

section
variable {σ C K V E X : Type} [DecidableEq C]

/-- The machine of Verif/Monitor/Full.lean, and what it has reported so far. (Concerns co_condition_variable.h:69-88, co_mutex.cpp:18-108.) -/
structure Obs (σ C K V E : Type) where
  f : Full σ C K V
  es : List (Ev K V E)

/-- Initially nobody is in a call, nothing is reported. (Concerns co_condition_variable.h:69-88, co_mutex.cpp:18-108.) -/
def Obs.init (s0 : σ) : Obs σ C K V E := ⟨Full.init s0, []⟩

/-- A step of the library, or of the code around it: coroutine `t` writes or reads `x`. (Concerns co_condition_variable.h:69-88, co_mutex.cpp:18-108.) -/
inductive VAct (K X : Type)
  | lib (a : FAct K)
  | own (t : Tid) (write : Bool) (x : X)

/-- Is it an event inside a critical section? (Concerns co_condition_variable.h:69-88, co_mutex.cpp:18-108.) -/
def Ev.isLin : Ev K V E → Bool
  | .lin _ => true
  | _ => false

/-- The events inside critical sections, without the mark. (Concerns co_condition_variable.h:69-88, co_mutex.cpp:18-108.) -/
def lins (es : List (Ev K V E)) : List E := es.filterMap fun e => match e with | .lin x => some x | _ => none

/-- The access of a critical section: `t` is about to execute one (`Pc.exec`), which reports `es`. (Concerns co_condition_variable.h:69-88, co_mutex.cpp:18-108.) -/
def secOps (f : Full σ C K V) (es : List (Ev K V E)) : FAct K → Tr Unit (Loc E X)
  | .run t _ => match f.low.pc t with
    | .exec _ => [(t, .wr (.data (lins es)))]
    | _ => []
  | .call _ _ => []

/-- One step. `lib`: the library (co_mutex.cpp:17-108, co_condition_variable.h:52-90, co_condition_variable.cpp:18-40). `own`: client code
outside the calls, not in the library. -/
def vstep (o : Obj σ C K V E) (v : Obs σ C K V E) : VAct K X → Option (Obs σ C K V E × Tr Unit (Loc E X))
  | .lib a => (v.f.step o a).map fun r => (⟨r.1, v.es ++ r.2⟩, Mutex.spinOps v.f.mx r.1.mx ++ secOps v.f r.2 a)
  | .own t w x => match v.f.low.pc t with
    | .idle => some (v, [(t, if w then .wr (.own x) else .rd (.own x))])
    | _ => none

/-- What the critical sections of a trace did, in order. (Concerns co_condition_variable.h:69-88, co_mutex.cpp:18-108.) -/
def secEvs (tr : Tr Unit (Loc E X)) : List (Ev K V E) :=
  tr.flatMap fun e => match e.2 with | .wr (.data es) => es.map .lin | _ => []

theorem lins_map (l : List E) : lins (l.map .lin : List (Ev K V E)) = l := by
  induction l with
  | nil => rfl
  | cons e l ih => simp only [lins, List.map_cons, List.filterMap_cons] at ih ⊢; rw [ih]

theorem isLin_map (l : List E) : (l.map .lin : List (Ev K V E)).filter Ev.isLin = l.map .lin := by
  rw [List.filter_eq_self]; intro e he; obtain ⟨x, _, rfl⟩ := List.mem_map.1 he; rfl

theorem secEvs_append (tr tr' : Tr Unit (Loc E X)) : (secEvs (tr ++ tr') : List (Ev K V E)) = secEvs tr ++ secEvs tr' := by simp [secEvs]

theorem spinOps_same (s : Mutex.St) : Mutex.spinOps s s = ([] : Tr Unit (Loc E X)) := by
  simp only [Mutex.spinOps]; cases s.spin <;> rfl

theorem spinOps_secEvs (s s' : Mutex.St) : (secEvs (Mutex.spinOps s s' : Tr Unit (Loc E X)) : List (Ev K V E)) = [] := by
  simp only [Mutex.spinOps]; cases s.spin <;> cases s'.spin <;> simp [secEvs]

theorem spinOps_len (s s' : Mutex.St) : (Mutex.spinOps s s' : Tr Unit (Loc E X)).length ≤ 1 := by
  simp only [Mutex.spinOps]; cases s.spin <;> cases s'.spin <;> simp

/-- What a step of the library is, seen from the mutex: a step of the mutex, a critical section by its holder, or nothing. -/
theorem full_kinds {o : Obj σ C K V E} {f f' : Full σ C K V} {a : FAct K} {es : List (Ev K V E)} (hI : f.Inv)
    (hs : f.step o a = some (f', es)) :
    (∃ x es', Mutex.step false f.mx x = some (f'.mx, es') ∧ (secOps f es a : Tr Unit (Loc E X)) = [] ∧ es.filter Ev.isLin = []) ∨
    (f'.mx = f.mx ∧ (secOps f es a : Tr Unit (Loc E X)) = [] ∧ es.filter Ev.isLin = []) ∨
    (∃ t l, f'.mx = f.mx ∧ f.mx.pc t = .out ∧ f.mx.hold t = true ∧ (secOps f es a : Tr Unit (Loc E X)) = [(t, .wr (.data l))] ∧
      es = l.map .lin) := by
  cases a with
  | call t k =>
    simp only [Full.step] at hs
    split at hs <;> cases hs
    exact .inr (.inl ⟨rfl, rfl, rfl⟩)
  | run t b =>
    simp only [Full.step, Full.runStep] at hs
    split at hs
    · rename_i hout
      have hlk : f.mx.hold t = (f.low.pc t).hasM := by
        rcases hI.link t with ⟨_, h2⟩ | ⟨h1, _⟩ | ⟨h1, _⟩
        · exact h2
        · rw [hout] at h1; cases h1
        · rw [hout] at h1; cases h1
      split at hs
      · rename_i k hp
        simp only [Option.map_eq_some_iff, Prod.mk.injEq] at hs
        obtain ⟨⟨m, es'⟩, hm, rfl, rfl⟩ := hs
        have hh : f.mx.hold t = false := by rw [hlk, hp]; rfl
        exact .inl ⟨_, es', mutex_false hm (by rintro u hu; cases hu; exact hh), by simp [secOps, hp], rfl⟩
      · rename_i c k hp
        split at hs <;> cases hs
        exact .inr (.inl ⟨rfl, by simp [secOps, hp], rfl⟩)
      · rename_i p hna hny
        split at hs
        · rename_i hun
          simp only [Option.map_eq_some_iff, Prod.mk.injEq] at hs
          obtain ⟨⟨m, es'⟩, hm, rfl, rfl⟩ := hs
          refine .inl ⟨_, es', mutex_false hm (by rintro u hu; cases hu), ?_, rfl⟩
          cases hp : f.low.pc t <;> simp [hp, Pc.unlocking] at hun <;> simp [secOps, hp]
        · rename_i hun
          simp only [Option.map_eq_some_iff, Prod.mk.injEq] at hs
          obtain ⟨⟨l, es'⟩, hl, rfl, rfl⟩ := hs
          simp only [Low.runStep] at hl
          cases hp : f.low.pc t with
          | exec k =>
            simp only [hp, Option.some.injEq, Prod.mk.injEq] at hl
            obtain ⟨rfl, rfl⟩ := hl
            refine .inr (.inr ⟨t, (o.body t k f.low.sh).ev, rfl, hout, by rw [hlk, hp]; rfl, ?_, rfl⟩)
            simp only [secOps, hp, lins_map]
          | idle => simp [hp] at hl
          | acq k => exact absurd hp (hna k)
          | pYield c k => exact absurd hp (hny c k)
          | sig l fn =>
            refine .inr (.inl ⟨rfl, by simp [secOps, hp], ?_⟩)
            rcases l with _ | ⟨g, l⟩
            · cases fn <;> simp only [hp, Pc.unlocking] at hl hun <;> first | (exact absurd trivial hun) | (split at hl <;> cases hl <;> rfl) | (simp at hun)
            · simp only [hp] at hl; split at hl <;> cases hl; rfl
          | sGo g l fn =>
            refine .inr (.inl ⟨rfl, by simp [secOps, hp], ?_⟩)
            cases g <;> simp only [hp] at hl
            · split at hl <;> cases hl <;> rfl
            · cases hl; rfl
          | sAll c ws l fn =>
            refine .inr (.inl ⟨rfl, by simp [secOps, hp], ?_⟩)
            cases ws <;> simp only [hp] at hl <;> cases hl <;> rfl
          | _ =>
            refine .inr (.inl ⟨rfl, by simp [secOps, hp], ?_⟩)
            simp only [hp] at hl; cases hl; rfl
    · rename_i hout
      split at hs
      · cases hs
      · split at hs
        · cases hs
        · rename_i m es' hm
          have hm' := mutex_false hm (by rintro u hu; cases hu)
          have hsec : ∀ es, (secOps f es (.run t b) : Tr Unit (Loc E X)) = [] := by
            intro es
            rcases hI.link t with ⟨h1, _⟩ | ⟨_, k, h2⟩ | ⟨_, h2⟩
            · exact absurd h1 hout
            · simp [secOps, h2]
            · cases hp : f.low.pc t <;> simp [hp, Pc.unlocking] at h2 <;> simp [secOps, hp]
          split at hs
          · simp only [Option.some.injEq] at hs
            have h1 : f'.mx = m ∧ es.filter Ev.isLin = [] := by
              simp only [Full.back] at hs
              split at hs
              · cases hs; exact ⟨rfl, rfl⟩
              · simp only [Prod.mk.injEq] at hs
                obtain ⟨rfl, rfl⟩ := hs
                refine ⟨rfl, ?_⟩
                simp only [Low.unlocked]
                split <;> rfl
              · cases hs; exact ⟨rfl, rfl⟩
            exact .inl ⟨_, es', by rw [h1.1]; exact hm', hsec _, h1.2⟩
          · cases hs
            exact .inl ⟨_, es', hm', hsec _, rfl⟩

/-- Proof device: what holds between the state and the trace. (Concerns co_condition_variable.h:69-88, co_mutex.cpp:18-108.) -/
structure VInv (v : Obs σ C K V E) (tr : Tr Unit (Loc E X)) : Prop where
  inv : v.f.Inv
  hinv : Mutex.HInv Loc.guarded v.f.mx tr
  secEvs : v.es.filter Ev.isLin = secEvs tr

/-- One step keeps it, and adds at most one operation. -/
theorem vinv_step {o : Obj σ C K V E} {v v' : Obs σ C K V E} {a : VAct K X} {tr e : Tr Unit (Loc E X)} (h : VInv v tr)
    (hs : vstep o v a = some (v', e)) : VInv v' (tr ++ e) ∧ e.length ≤ 1 := by
  cases a with
  | own t w x =>
    simp only [vstep] at hs
    split at hs <;> cases hs
    refine ⟨⟨h.inv, Mutex.hinv_step _ _ _ (.acc t w (.own x)) tr _ h.hinv ?_, ?_⟩, by simp⟩
    · simp only [Mutex.hstep, Loc.guarded]; cases w <;> simp
    · rw [secEvs_append, ← h.secEvs]; cases w <;> simp [Monitor.secEvs]
  | lib a =>
    simp only [vstep, Option.map_eq_some_iff, Prod.mk.injEq] at hs
    obtain ⟨⟨f', es⟩, hst, rfl, rfl⟩ := hs
    have hI' := (Full.sim_step h.inv hst).1
    rcases full_kinds (X := X) h.inv hst with ⟨x, es', h1, h2, h3⟩ | ⟨h1, h2, h3⟩ | ⟨t, l, h1, h2, h3, h4, h5⟩
    · simp only at hI' ⊢
      rw [h2, List.append_nil]
      refine ⟨⟨hI', Mutex.hinv_step _ _ _ (.lib x) tr _ h.hinv (by simp [Mutex.hstep, h1]), ?_⟩, spinOps_len _ _⟩
      rw [secEvs_append, spinOps_secEvs, List.append_nil, List.filter_append, h3, List.append_nil, h.secEvs]
    · simp only at hI' ⊢
      rw [h2, h1, spinOps_same]
      refine ⟨⟨hI', by simp only [h1, List.append_nil]; exact h.hinv, ?_⟩, by simp⟩
      simp only [List.append_nil, List.filter_append, h3, h.secEvs]
    · simp only at hI' ⊢
      rw [h4, h1, spinOps_same]
      refine ⟨⟨hI', ?_, ?_⟩, by simp⟩
      · refine Mutex.hinv_step _ _ _ (.acc t true (.data l)) tr _ h.hinv ?_
        simp [Mutex.hstep, h1, h2, h3]
      · simp only [List.nil_append, secEvs_append, List.filter_append, h.secEvs, h5, isLin_map]
        simp [Monitor.secEvs]

theorem vinv_init (s0 : σ) : VInv (Obs.init s0 : Obs σ C K V E) ([] : Tr Unit (Loc E X)) :=
  ⟨Full.inv_init s0, Mutex.hinv_init _, rfl⟩

theorem vinv {o : Obj σ C K V E} (as : List (VAct K X)) : ∀ (v v' : Obs σ C K V E) (tr es : Tr Unit (Loc E X)), VInv v tr →
    runs (vstep o) v as = some (v', es) → VInv v' (tr ++ es) :=
  fun v v' tr es hI h => runs_hist VInv (fun _ _ _ _ _ h hs => (vinv_step h hs).1) as v v' es tr hI h

/-- The library's part of an execution. -/
theorem vrun_full {o : Obj σ C K V E} : ∀ (as : List (VAct K X)) (v v' : Obs σ C K V E) (tr : Tr Unit (Loc E X)),
    runs (vstep o) v as = some (v', tr) → ∃ bs es, runs (Full.step o) v.f bs = some (v'.f, es) ∧ v'.es = v.es ++ es := by
  intro as
  induction as with
  | nil => intro v v' tr h; simp only [runs, Option.some.injEq, Prod.mk.injEq] at h; obtain ⟨rfl, rfl⟩ := h; exact ⟨[], [], rfl, by simp⟩
  | cons a as ih =>
    intro v v' tr h
    obtain ⟨v1, e1, e2, h1, h2, rfl⟩ := runs_cons h
    obtain ⟨bs, es, hb, he⟩ := ih _ _ _ h2
    cases a with
    | own t w x =>
      simp only [vstep] at h1
      split at h1 <;> cases h1
      exact ⟨bs, es, hb, he⟩
    | lib a =>
      simp only [vstep, Option.map_eq_some_iff, Prod.mk.injEq] at h1
      obtain ⟨⟨f', fs⟩, hst, rfl, _⟩ := h1
      exact ⟨a :: bs, fs ++ es, by simp only [runs, hst, hb], by rw [he]; simp⟩

/-- Every beginning of a trace is the trace of a beginning of the execution. -/
theorem vrun_prefix {o : Obj σ C K V E} : ∀ (as : List (VAct K X)) (v v' : Obs σ C K V E) (tr0 tr : Tr Unit (Loc E X)), VInv v tr0 →
    runs (vstep o) v as = some (v', tr) → ∀ l, l ≤ tr.length →
    ∃ (as1 as2 : List (VAct K X)) (v1 : Obs σ C K V E) (tr2 : Tr Unit (Loc E X)), runs (vstep o) v as1 = some (v1, tr.take l) ∧ runs (vstep o) v1 as2 = some (v', tr2) := by
  intro as
  induction as with
  | nil =>
    intro v v' tr0 tr _ h l hl
    simp only [runs, Option.some.injEq, Prod.mk.injEq] at h; obtain ⟨rfl, rfl⟩ := h
    exact ⟨[], [], v, [], by simp [runs], rfl⟩
  | cons a as ih =>
    intro v v' tr0 tr hI h l hl
    obtain ⟨v1, e1, e2, h1, h2, rfl⟩ := runs_cons h
    obtain ⟨hI1, hlen⟩ := vinv_step hI h1
    by_cases h0 : l = 0
    · subst h0; exact ⟨[], a :: as, v, _, by simp [runs], h⟩
    · obtain ⟨as1, as2, v2, tr2, h3, h4⟩ := ih v1 v' _ e2 hI1 h2 (l - e1.length) (by simp at hl; omega)
      refine ⟨a :: as1, as2, v2, tr2, ?_, h4⟩
      simp only [runs, h1, h3]
      have h5 : e1.take l = e1 := List.take_of_length_le (by omega)
      rw [List.take_append, h5]

/-- The reports of the library at a beginning of the trace. -/
theorem vrun_at {o : Obj σ C K V E} {s0 : σ} {as : List (VAct K X)} {v : Obs σ C K V E} {tr : Tr Unit (Loc E X)}
    (h : runs (vstep o) (Obs.init s0) as = some (v, tr)) (l : Nat) (hl : l ≤ tr.length) :
    ∃ bs f es es2, runs (Full.step o) (Full.init s0) bs = some (f, es) ∧ es.filter Ev.isLin = secEvs (tr.take l) ∧ v.es = es ++ es2 := by
  obtain ⟨as1, as2, v1, tr2, h1, h2⟩ := vrun_prefix as _ _ _ _ (vinv_init s0) h l hl
  obtain ⟨bs, es, hb, he⟩ := vrun_full _ _ _ _ h1
  obtain ⟨_, es2, _, he2⟩ := vrun_full _ _ _ _ h2
  have := (vinv as1 _ _ _ _ (vinv_init s0) h1).secEvs
  simp only [Obs.init, List.nil_append] at he this
  subst he
  exact ⟨bs, _, _, es2, hb, this, he2⟩

/-- **C125 (objects order memory).** A critical section of an object happens before every later one. Whatever a coroutine has done before a
call of which the section is part is therefore visible to whoever has returned from a call with a later section. -/
theorem C125_sections_order (o : Obj σ C K V E) (s0 : σ) (as : List (VAct K X)) (v : Obs σ C K V E) (tr : Tr Unit (Loc E X))
    (h : runs (vstep o) (Obs.init s0) as = some (v, tr)) (i n m j : Nat) (a b : Tid) (p q : Op Unit (Loc E X)) (x y : List E)
    (hi : tr[i]? = some (a, p)) (hn : tr[n]? = some (a, .wr (.data x))) (hm : tr[m]? = some (b, .wr (.data y)))
    (hj : tr[j]? = some (b, q)) (h1 : i < n) (h2 : n ≤ m) (h3 : m < j) : HB tr i j := by
  have hI := (vinv as _ _ _ _ (vinv_init s0) h).hinv
  simp only [List.nil_append] at hI
  rcases Nat.eq_or_lt_of_le h2 with rfl | h2
  · rw [hn] at hm; cases hm; exact HB.po (by omega) hi hj
  · have h4 := hI.good n m a b _ _ h2 hn hm ⟨.data x, rfl, .inr rfl⟩ ⟨.data y, rfl, .inr rfl⟩
    exact ((HB.po h1 hi hn).trans h4).trans (HB.po h3 hm hj)

theorem secEvs_take_le {tr : Tr Unit (Loc E X)} {l n : Nat} (h : l ≤ n) :
    ∃ es, (secEvs (tr.take n) : List (Ev K V E)) = secEvs (tr.take l) ++ es := by
  refine ⟨secEvs ((tr.take n).drop l), ?_⟩
  rw [← secEvs_append]
  have := List.take_append_drop l (tr.take n)
  rw [List.take_take, Nat.min_eq_left h] at this
  rw [this]

theorem secEvs_take_succ {tr : Tr Unit (Loc E X)} {n : Nat} {a : Tid} {x : List E} (h : tr[n]? = some (a, .wr (.data x))) :
    (secEvs (tr.take (n + 1)) : List (Ev K V E)) = secEvs (tr.take n) ++ x.map .lin := by
  rw [List.take_add_one, h, secEvs_append]; simp [secEvs]

end
end Verif.Monitor
