import Verif.Monitor.FullObjs

/-! # Sections of a monitor executed one after the other

Schedules of the machine of Verif/Monitor/Full.lean in which each section runs without interruption, for building witnesses with any number
of rounds. -/

namespace Verif.Monitor
section
variable {σ C K V E : Type} [DecidableEq C]

/-- `n` steps of coroutine `t`; if it looks at the clock, the spin phase is over. (Concerns co_counting_semaphore.h:18, co_latch.h:17.) -/
def solo (t : Tid) (n : Nat) : List (FAct K) := List.replicate n (.run t true)

/-- Proof device: the mutex held by `t`, all else quiet. (Concerns co_counting_semaphore.h:18, co_latch.h:17.) -/
def lockedBy (t : Tid) : Mutex.St := ⟨none, some t, [], fun _ => false, fun _ => .out, upd (fun _ => false) t true⟩

theorem upd_back {α : Type} (f : Tid → α) (t : Tid) (v : α) (h : f t = v) : upd f t v = f := by
  funext u; by_cases hu : u = t <;> simp_all [upd_apply]

theorem upd_upd {α : Type} (f : Tid → α) (t : Tid) (v w : α) : upd (upd f t v) t w = upd f t w := by
  funext u; by_cases hu : u = t <;> simp_all [upd_apply]

/-- `lock()` on a free mutex: five steps. -/
theorem lock_run (o : Obj σ C K V E) (f : Full σ C K V) (t : Tid) (k : K) (hm : f.mx = Mutex.St.init) (hp : f.low.pc t = .acq k) :
    runs (Full.step o) f (solo t 5) = some (⟨{ f.low with mtx := some t, pc := upd f.low.pc t (.exec k) }, lockedBy t, f.err⟩, []) := by
  obtain ⟨l, m, e⟩ := f
  subst hm
  simp only at hp
  simp [solo, List.replicate, runs, Full.step, Full.runStep, Mutex.step, Mutex.runStep, Mutex.St.init, Mutex.St.goto, Mutex.St.acquire, hp,
    Full.back, Low.locked, lockedBy, upd_upd, upd_back]

/-- `unlock()` by the holder, nobody waiting for the mutex: four steps. -/
theorem unlock_run (o : Obj σ C K V E) (f : Full σ C K V) (t : Tid) (hm : f.mx = lockedBy t) (hp : (f.low.pc t).unlocking = true) :
    runs (Full.step o) f (solo t 4) = some (⟨(f.low.unlocked (E := E) t).1, Mutex.St.init, f.err⟩, (f.low.unlocked t).2) := by
  obtain ⟨l, m, e⟩ := f
  subst hm
  simp only at hp
  have h1 : ∀ k, l.pc t ≠ .acq k := by intro k h; simp [h, Pc.unlocking] at hp
  have h2 : ∀ c k, l.pc t ≠ .pYield c k := by intro c k h; simp [h, Pc.unlocking] at hp
  have h3 : Full.step o ⟨l, lockedBy t, e⟩ (.run t true) =
      some (⟨l, { lockedBy t with pc := upd (fun _ => .out) t (.ulAcq true), hold := fun _ => false }, e⟩, []) := by
    cases hq : l.pc t with
    | acq k => exact absurd hq (h1 k)
    | pYield c k => exact absurd hq (h2 c k)
    | _ => simp [Full.step, Full.runStep, lockedBy, hq, Mutex.step, upd_upd, upd_back] <;> simp_all
  rw [show solo t 4 = FAct.run t true :: solo t 3 from rfl]
  simp only [runs, h3]
  simp [solo, List.replicate, runs, Full.step, Full.runStep, Mutex.step, Mutex.runStep, Mutex.St.init, Mutex.St.goto, Mutex.St.acquire,
    Full.back, lockedBy, upd_upd, upd_back]

/-- A step of the object itself, with the mutex held. -/
theorem low_run (o : Obj σ C K V E) (l : Low σ C K V) (m : Mutex.St) (e : Bool) (t : Tid) (b : Bool) (hm : m.pc t = .out) (ha : ∀ k, l.pc t ≠ .acq k)
    (hy : ∀ c k, l.pc t ≠ .pYield c k) (hu : (l.pc t).unlocking = false) :
    Full.step o ⟨l, m, e⟩ (.run t b) = (l.runStep o t).map fun r => (⟨r.1, m, e⟩, r.2) := by
  simp only [Full.step, Full.runStep, hm, if_true]
  cases hq : l.pc t with
  | acq k => exact absurd hq (ha k)
  | pYield c k => exact absurd hq (hy c k)
  | _ => simp_all

/-- The section is executed (one step). -/
theorem exec_run (o : Obj σ C K V E) (l : Low σ C K V) (e : Bool) (t : Tid) (k : K) (hp : l.pc t = .exec k) :
    runs (Full.step o) ⟨l, lockedBy t, e⟩ (solo t 1) = some (⟨{ l with sh := (o.body t k l.sh).sh, pc := upd l.pc t (.sig (o.body t k l.sh).sigs (o.body t k l.sh).fin) }, lockedBy t, e⟩,
      (o.body t k l.sh).ev.map .lin) := by
  have := low_run o l (lockedBy t) e t true rfl (by simp [hp]) (by simp [hp]) (by simp [hp, Pc.unlocking])
  simp [solo, List.replicate, runs, this, Low.runStep, hp]

/-- `notify_one` with nobody waiting: three steps. -/
theorem one_none_run (o : Obj σ C K V E) (l : Low σ C K V) (e : Bool) (t : Tid) (c : C) (gs : List (Sig C)) (fn : Fin C K V)
    (hp : l.pc t = .sig (.one c :: gs) fn) (hc : l.cv c = none) (hw : l.wl c = []) :
    runs (Full.step o) ⟨l, lockedBy t, e⟩ (solo t 3) = some (⟨{ l with pc := upd l.pc t (.sig gs fn) }, lockedBy t, e⟩, []) := by
  have h1 := low_run o l (lockedBy t) e t true rfl (by simp [hp]) (by simp [hp]) (by simp [hp, Pc.unlocking])
  simp [Low.runStep, hp, Sig.cv, hc] at h1
  have h2 := low_run o { l with cv := setC l.cv c (some t), pc := upd l.pc t (.sGo (.one c) gs fn) } (lockedBy t) e t true rfl (by simp) (by simp)
    (by simp [Pc.unlocking])
  simp [Low.runStep, hw, Low.goto, upd_upd] at h2
  have h3 := low_run o { l with cv := setC l.cv c (some t), pc := upd l.pc t (.sRel c gs fn) } (lockedBy t) e t true rfl (by simp) (by simp)
    (by simp [Pc.unlocking])
  have hcv : setC l.cv c none = l.cv := by rw [← hc]; exact setC_self _ _
  simp [Low.runStep, upd_upd, hcv] at h3
  simp [solo, List.replicate, runs, h1, h2, h3]

/-- `notify_one` with somebody waiting: four steps. -/
theorem one_some_run (o : Obj σ C K V E) (l : Low σ C K V) (e : Bool) (t u : Tid) (rest : List Tid) (c : C) (gs : List (Sig C)) (fn : Fin C K V)
    (hp : l.pc t = .sig (.one c :: gs) fn) (hc : l.cv c = none) (hw : l.wl c = u :: rest) :
    runs (Full.step o) ⟨l, lockedBy t, e⟩ (solo t 4) =
      some (⟨{ l with wl := setC l.wl c rest, asleep := upd l.asleep u false, pc := upd l.pc t (.sig gs fn) }, lockedBy t, e⟩, []) := by
  have h1 := low_run o l (lockedBy t) e t true rfl (by simp [hp]) (by simp [hp]) (by simp [hp, Pc.unlocking])
  simp [Low.runStep, hp, Sig.cv, hc] at h1
  have h2 := low_run o { l with cv := setC l.cv c (some t), pc := upd l.pc t (.sGo (.one c) gs fn) } (lockedBy t) e t true rfl (by simp) (by simp)
    (by simp [Pc.unlocking])
  simp [Low.runStep, hw, Low.goto, upd_upd] at h2
  have h3 := low_run o { l with cv := setC l.cv c (some t), wl := setC l.wl c rest, pc := upd l.pc t (.sWake c u gs fn) } (lockedBy t) e t true rfl (by simp) (by simp)
    (by simp [Pc.unlocking])
  simp [Low.runStep, upd_upd] at h3
  have h4 := low_run o { l with cv := setC l.cv c (some t), wl := setC l.wl c rest, asleep := upd l.asleep u false, pc := upd l.pc t (.sRel c gs fn) } (lockedBy t) e t true rfl (by simp) (by simp)
    (by simp [Pc.unlocking])
  have hcv : setC l.cv c none = l.cv := by rw [← hc]; exact setC_self _ _
  simp [Low.runStep, upd_upd, hcv] at h4
  simp [solo, List.replicate, runs, h1, h2, h3, h4]

theorem solo_add (t : Tid) (m n : Nat) : (solo t (m + n) : List (FAct K)) = solo t m ++ solo t n := by
  simp [solo, List.replicate_append_replicate]

/-- **A section that notifies nobody and returns**: ten steps. -/
theorem section_ret (o : Obj σ C K V E) (l : Low σ C K V) (e : Bool) (t : Tid) (k : K) (sh' : σ) (ev : List E) (v : V)
    (hp : l.pc t = .acq k) (hb : o.body t k l.sh = ⟨sh', ev, [], .ret v⟩) :
    runs (Full.step o) ⟨l, Mutex.St.init, e⟩ (solo t 10) =
      some (⟨{ l with sh := sh', mtx := none, pc := upd l.pc t .idle }, Mutex.St.init, e⟩, ev.map .lin ++ [.ret t v]) := by
  have h1 := lock_run o ⟨l, Mutex.St.init, e⟩ t k rfl hp
  have h2 := exec_run o { l with mtx := some t, pc := upd l.pc t (.exec k) } e t k (by simp)
  simp only [hb] at h2
  have h3 := unlock_run o ⟨{ l with sh := sh', mtx := some t, pc := upd l.pc t (.sig [] (.ret v)) }, lockedBy t, e⟩ t rfl (by simp [Pc.unlocking])
  simp only [Low.unlocked, upd_same, upd_upd] at h2 h3
  have := runs_append (runs_append h1 h2) h3
  rw [← solo_add, ← solo_add] at this
  simpa using this

/-- **A section that notifies one, nobody waiting**: thirteen steps. -/
theorem section_one_none (o : Obj σ C K V E) (l : Low σ C K V) (e : Bool) (t : Tid) (k : K) (sh' : σ) (ev : List E) (v : V) (c : C)
    (hp : l.pc t = .acq k) (hb : o.body t k l.sh = ⟨sh', ev, [.one c], .ret v⟩) (hc : l.cv c = none) (hw : l.wl c = []) :
    runs (Full.step o) ⟨l, Mutex.St.init, e⟩ (solo t 13) =
      some (⟨{ l with sh := sh', mtx := none, pc := upd l.pc t .idle }, Mutex.St.init, e⟩, ev.map .lin ++ [.ret t v]) := by
  have h1 := lock_run o ⟨l, Mutex.St.init, e⟩ t k rfl hp
  have h2 := exec_run o { l with mtx := some t, pc := upd l.pc t (.exec k) } e t k (by simp)
  simp only [hb] at h2
  have hn := one_none_run o { l with sh := sh', mtx := some t, pc := upd l.pc t (.sig [.one c] (.ret v)) } e t c [] (.ret v) (by simp) hc hw
  have h3 := unlock_run o ⟨{ l with sh := sh', mtx := some t, pc := upd l.pc t (.sig [] (.ret v)) }, lockedBy t, e⟩ t rfl (by simp [Pc.unlocking])
  simp only [Low.unlocked, upd_same, upd_upd] at h2 hn h3
  have := runs_append (runs_append (runs_append h1 h2) hn) h3
  rw [← solo_add, ← solo_add, ← solo_add] at this
  simpa using this

/-- **A section that notifies one, `u` being the first that waits**: fourteen steps. -/
theorem section_one_some (o : Obj σ C K V E) (l : Low σ C K V) (e : Bool) (t u : Tid) (rest : List Tid) (k : K) (sh' : σ) (ev : List E) (v : V) (c : C)
    (hp : l.pc t = .acq k) (hb : o.body t k l.sh = ⟨sh', ev, [.one c], .ret v⟩) (hc : l.cv c = none) (hw : l.wl c = u :: rest) :
    runs (Full.step o) ⟨l, Mutex.St.init, e⟩ (solo t 14) =
      some (⟨{ l with sh := sh', mtx := none, wl := setC l.wl c rest, asleep := upd l.asleep u false, pc := upd l.pc t .idle }, Mutex.St.init, e⟩,
        ev.map .lin ++ [.ret t v]) := by
  have h1 := lock_run o ⟨l, Mutex.St.init, e⟩ t k rfl hp
  have h2 := exec_run o { l with mtx := some t, pc := upd l.pc t (.exec k) } e t k (by simp)
  simp only [hb] at h2
  have hn := one_some_run o { l with sh := sh', mtx := some t, pc := upd l.pc t (.sig [.one c] (.ret v)) } e t u rest c [] (.ret v) (by simp) hc hw
  have h3 := unlock_run o ⟨{ l with sh := sh', mtx := some t, wl := setC l.wl c rest, asleep := upd l.asleep u false, pc := upd l.pc t (.sig [] (.ret v)) }, lockedBy t, e⟩ t rfl (by simp [Pc.unlocking])
  simp only [Low.unlocked, upd_same, upd_upd] at h2 hn h3
  have := runs_append (runs_append (runs_append h1 h2) hn) h3
  rw [← solo_add, ← solo_add, ← solo_add] at this
  simpa using this

/-- **A section that waits**: fourteen steps. -/
theorem section_park (o : Obj σ C K V E) (l : Low σ C K V) (e : Bool) (t : Tid) (k k' : K) (sh' : σ) (ev : List E) (c : C)
    (hp : l.pc t = .acq k) (hb : o.body t k l.sh = ⟨sh', ev, [], .park c k'⟩) (hc : l.cv c = none) :
    runs (Full.step o) ⟨l, Mutex.St.init, e⟩ (solo t 14) =
      some (⟨{ l with sh := sh', mtx := none, wl := setC l.wl c (l.wl c ++ [t]), asleep := upd l.asleep t true, pc := upd l.pc t (.pYield c k') }, Mutex.St.init, e⟩,
        ev.map .lin) := by
  have h1 := lock_run o ⟨l, Mutex.St.init, e⟩ t k rfl hp
  have h2 := exec_run o { l with mtx := some t, pc := upd l.pc t (.exec k) } e t k (by simp)
  simp only [hb] at h2
  have h3 := low_run o { l with sh := sh', mtx := some t, pc := upd l.pc t (.sig [] (.park c k')) } (lockedBy t) e t true rfl (by simp) (by simp) (by simp [Pc.unlocking])
  simp [Low.runStep, hc, upd_upd] at h3
  have h4 := low_run o { l with sh := sh', mtx := some t, cv := setC l.cv c (some t), pc := upd l.pc t (.pPush c k') } (lockedBy t) e t true rfl (by simp) (by simp)
    (by simp [Pc.unlocking])
  simp [Low.runStep, upd_upd] at h4
  have h5 := unlock_run o ⟨{ l with sh := sh', mtx := some t, cv := setC l.cv c (some t), wl := setC l.wl c (l.wl c ++ [t]), pc := upd l.pc t (.pUnlk c k') }, lockedBy t, e⟩ t
    rfl (by simp [Pc.unlocking])
  have h6 := low_run o { l with sh := sh', mtx := none, cv := setC l.cv c (some t), wl := setC l.wl c (l.wl c ++ [t]), pc := upd l.pc t (.pSleep c k') } Mutex.St.init e t true rfl
    (by simp) (by simp) (by simp [Pc.unlocking])
  simp [Low.runStep, upd_upd] at h6
  have h7 := low_run o { l with sh := sh', mtx := none, cv := setC l.cv c (some t), wl := setC l.wl c (l.wl c ++ [t]), asleep := upd l.asleep t true, pc := upd l.pc t (.pRel c k') }
    Mutex.St.init e t true rfl (by simp) (by simp) (by simp [Pc.unlocking])
  have hcv : setC l.cv c none = l.cv := by rw [← hc]; exact setC_self _ _
  simp [Low.runStep, upd_upd, hcv] at h7
  simp only [Low.unlocked, upd_same, upd_upd] at h2 h5
  have h34 : runs (Full.step o) ⟨{ l with sh := sh', mtx := some t, pc := upd l.pc t (.sig [] (.park c k')) }, lockedBy t, e⟩ (solo t 2) =
      some (⟨{ l with sh := sh', mtx := some t, cv := setC l.cv c (some t), wl := setC l.wl c (l.wl c ++ [t]), pc := upd l.pc t (.pUnlk c k') }, lockedBy t, e⟩, []) := by
    simp [solo, List.replicate, runs, h3, h4]
  have h67 : runs (Full.step o) ⟨{ l with sh := sh', mtx := none, cv := setC l.cv c (some t), wl := setC l.wl c (l.wl c ++ [t]), pc := upd l.pc t (.pSleep c k') }, Mutex.St.init, e⟩
      (solo t 2) = some (⟨{ l with sh := sh', mtx := none, wl := setC l.wl c (l.wl c ++ [t]), asleep := upd l.asleep t true, pc := upd l.pc t (.pYield c k') }, Mutex.St.init, e⟩, []) := by
    simp [solo, List.replicate, runs, h6, h7]
  have := runs_append (runs_append (runs_append (runs_append h1 h2) h34) h5) h67
  rw [← solo_add, ← solo_add, ← solo_add, ← solo_add] at this
  simpa using this

/-- A coroutine that was notified goes on: one step. -/
theorem wake_run (o : Obj σ C K V E) (l : Low σ C K V) (e : Bool) (t : Tid) (c : C) (k : K) (hp : l.pc t = .pYield c k) (ha : l.asleep t = false) :
    runs (Full.step o) ⟨l, Mutex.St.init, e⟩ (solo t 1) = some (⟨{ l with pc := upd l.pc t (.acq k) }, Mutex.St.init, e⟩, []) := by
  simp [solo, List.replicate, runs, Full.step, Full.runStep, Mutex.St.init, hp, ha, Low.goto]

/-- A call begins. -/
theorem call_run (o : Obj σ C K V E) (l : Low σ C K V) (m : Mutex.St) (e : Bool) (t : Tid) (k : K) (hp : l.pc t = .idle) :
    runs (Full.step o) ⟨l, m, e⟩ [.call t k] = some (⟨{ l with pc := upd l.pc t (.acq k) }, m, e⟩, [.call t k]) := by
  simp [runs, Full.step, hp, Low.goto]

/-! Whole calls, as facts about the state afterwards. -/

/-- A call that notifies one of nobody and returns. -/
theorem call_one_none (o : Obj σ C K V E) (l : Low σ C K V) (e : Bool) (t : Tid) (k : K) (sh' : σ) (ev : List E) (v : V) (c : C)
    (hp : l.pc t = .idle) (hb : o.body t k l.sh = ⟨sh', ev, [.one c], .ret v⟩) (hc : l.cv c = none) (hw : l.wl c = []) :
    ∃ l', runs (Full.step o) ⟨l, Mutex.St.init, e⟩ ([.call t k] ++ solo t 13) = some (⟨l', Mutex.St.init, e⟩, .call t k :: (ev.map .lin ++ [.ret t v])) ∧
      l'.sh = sh' ∧ l'.wl = l.wl ∧ l'.cv = l.cv ∧ l'.asleep = l.asleep ∧ l'.pc = upd l.pc t .idle :=
  ⟨_, runs_append (call_run o l _ e t k hp) (section_one_none o { l with pc := upd l.pc t (.acq k) } e t k sh' ev v c (upd_same ..) hb hc hw),
    rfl, rfl, rfl, rfl, upd_upd ..⟩

/-- A call that notifies one, `u` being the first that waits, and returns. -/
theorem call_one_some (o : Obj σ C K V E) (l : Low σ C K V) (e : Bool) (t u : Tid) (rest : List Tid) (k : K) (sh' : σ) (ev : List E) (v : V) (c : C)
    (hp : l.pc t = .idle) (hb : o.body t k l.sh = ⟨sh', ev, [.one c], .ret v⟩) (hc : l.cv c = none) (hw : l.wl c = u :: rest) :
    ∃ l', runs (Full.step o) ⟨l, Mutex.St.init, e⟩ ([.call t k] ++ solo t 14) = some (⟨l', Mutex.St.init, e⟩, .call t k :: (ev.map .lin ++ [.ret t v])) ∧
      l'.sh = sh' ∧ l'.wl = setC l.wl c rest ∧ l'.cv = l.cv ∧ l'.asleep = upd l.asleep u false ∧ l'.pc = upd l.pc t .idle :=
  ⟨_, runs_append (call_run o l _ e t k hp) (section_one_some o { l with pc := upd l.pc t (.acq k) } e t u rest k sh' ev v c (upd_same ..) hb hc hw),
    rfl, rfl, rfl, rfl, upd_upd ..⟩

/-- A call that waits. -/
theorem call_park (o : Obj σ C K V E) (l : Low σ C K V) (e : Bool) (t : Tid) (k k' : K) (sh' : σ) (ev : List E) (c : C)
    (hp : l.pc t = .idle) (hb : o.body t k l.sh = ⟨sh', ev, [], .park c k'⟩) (hc : l.cv c = none) :
    ∃ l', runs (Full.step o) ⟨l, Mutex.St.init, e⟩ ([.call t k] ++ solo t 14) = some (⟨l', Mutex.St.init, e⟩, .call t k :: ev.map .lin) ∧
      l'.sh = sh' ∧ l'.wl = setC l.wl c (l.wl c ++ [t]) ∧ l'.cv = l.cv ∧ l'.asleep = upd l.asleep t true ∧ l'.pc = upd l.pc t (.pYield c k') :=
  ⟨_, runs_append (call_run o l _ e t k hp) (section_park o { l with pc := upd l.pc t (.acq k) } e t k k' sh' ev c (upd_same ..) hb hc),
    rfl, rfl, rfl, rfl, upd_upd ..⟩

/-- A coroutine that was notified has to wait again. -/
theorem again_park (o : Obj σ C K V E) (l : Low σ C K V) (e : Bool) (t : Tid) (k k' : K) (sh' : σ) (ev : List E) (c : C)
    (hp : l.pc t = .pYield c k) (ha : l.asleep t = false) (hb : o.body t k l.sh = ⟨sh', ev, [], .park c k'⟩) (hc : l.cv c = none) :
    ∃ l', runs (Full.step o) ⟨l, Mutex.St.init, e⟩ (solo t 1 ++ solo t 14) = some (⟨l', Mutex.St.init, e⟩, ev.map .lin) ∧
      l'.sh = sh' ∧ l'.wl = setC l.wl c (l.wl c ++ [t]) ∧ l'.cv = l.cv ∧ l'.asleep = upd l.asleep t true ∧ l'.pc = upd l.pc t (.pYield c k') :=
  ⟨_, runs_append (wake_run o l e t c k hp ha) (section_park o { l with pc := upd l.pc t (.acq k) } e t k k' sh' ev c (upd_same ..) hb hc),
    rfl, rfl, rfl, rfl, upd_upd ..⟩

end
end Verif.Monitor
