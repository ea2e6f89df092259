import Verif.Util.Event

/-! # C77: event subscriptions -/

namespace Verif.Event

variable {C : Type}

theorem key_small {h : Nat} (hh : h < 2 ^ 31) : key h = h := by
  unfold key
  rw [Nat.mod_eq_of_lt (by omega), if_pos hh]

theorem subs_append_sub (tr : List (Ev C)) (h : Nat) (c : C) : subs (tr ++ [.sub h c]) = subs tr ++ [(h, c)] := by
  simp [subs, note]

theorem subs_append_unsub (tr : List (Ev C)) (h : Nat) :
    subs (tr ++ [.unsub h]) = (subs tr).filter (fun p => p.1 ≠ h) := by
  simp [subs, note]

theorem handles_append (a b : List (Ev C)) : handles (a ++ b) = handles a ++ handles b := by
  simp [handles]

/-- The map holds the subscriptions, as long as the handles fit in an `int`. (Concerns co_event.h:20-53.) -/
structure Inv (s : State C) (tr : List (Ev C)) : Prop where
  hand : handles tr = List.range (handles tr).length
  cur : s.cur = (handles tr).length
  map : s.map = (subs tr).map (fun p => ((p.1 : Int), p.2))
  lt : ∀ p ∈ subs tr, p.1 < s.cur
  asc : (subs tr).Pairwise (fun p q => p.1 < q.1)

theorem insert_last (k : Int) (c : C) (m : List (Int × C)) (h : ∀ p ∈ m, p.1 < k) : insert k c m = m ++ [(k, c)] := by
  induction m with
  | nil => rfl
  | cons p m ih =>
    obtain ⟨k', c'⟩ := p
    have := h (k', c') (by simp)
    simp only [insert]
    rw [if_neg (by simp only at this; omega), if_neg (by simp only at this; omega), ih (fun p hp => h p (by simp [hp]))]
    rfl

theorem subs_same {tr es : List (Ev C)} (h : ∀ e ∈ es, (∀ h c, e ≠ .sub h c) ∧ ∀ h, e ≠ .unsub h) :
    subs (tr ++ es) = subs tr := by
  induction es generalizing tr with
  | nil => simp
  | cons e es ih =>
    have h1 := h e (by simp)
    have : tr ++ e :: es = (tr ++ [e]) ++ es := by simp
    rw [this, ih (fun e he => h e (by simp [he]))]
    cases e with
    | sub x c => exact absurd rfl (h1.1 x c)
    | unsub x => exact absurd rfl (h1.2 x)
    | _ => simp [subs, note]

theorem handles_same {tr es : List (Ev C)} (h : ∀ e ∈ es, ∀ h c, e ≠ .sub h c) : handles (tr ++ es) = handles tr := by
  rw [handles_append]
  have : handles es = [] := by
    simp only [handles, List.filterMap_eq_nil_iff]
    intro e he
    have := h e he
    cases e with
    | sub h c => exact absurd rfl (this h c)
    | _ => rfl
  simp [this]

theorem inv_frame {s s' : State C} {tr es : List (Ev C)} (hI : Inv s tr) (hm : s'.map = s.map) (hc : s'.cur = s.cur)
    (h : ∀ e ∈ es, (∀ h c, e ≠ .sub h c) ∧ ∀ h, e ≠ .unsub h) : Inv s' (tr ++ es) := by
  have e1 := subs_same (tr := tr) h
  have e2 := handles_same (tr := tr) (fun e he => (h e he).1)
  exact ⟨by rw [e2]; exact hI.hand, by rw [e2, hc]; exact hI.cur, by rw [e1, hm]; exact hI.map,
    by rw [e1, hc]; exact hI.lt, by rw [e1]; exact hI.asc⟩

theorem inv_step {s s' : State C} {a : Act C} {es tr : List (Ev C)} (hI : Inv s tr)
    (hn : (handles (tr ++ es)).length ≤ 2 ^ 31) (hu : ∀ h, Ev.unsub h ∈ es → h < 2 ^ 32) (hs : step s a = some (s', es)) : Inv s' (tr ++ es) := by
  cases a with
  | sub c =>
    simp only [step, Option.some.injEq, Prod.mk.injEq] at hs
    obtain ⟨rfl, rfl⟩ := hs
    have hh : handles (tr ++ [Ev.sub s.cur c]) = handles tr ++ [s.cur] := by simp [handles]
    have hl : s.cur < 2 ^ 31 := by
      rw [hh, List.length_append, ← hI.cur] at hn
      simp at hn; omega
    refine ⟨?_, ?_, ?_, ?_, ?_⟩
    · rw [hh, List.length_append, List.length_singleton, List.range_succ, ← hI.hand, ← hI.cur]
    · rw [hh, List.length_append, List.length_singleton, ← hI.cur]
      simp only
      omega
    · rw [subs_append_sub, List.map_append]
      simp only [List.map_cons, List.map_nil]
      rw [key_small hl, hI.map]
      refine insert_last _ _ _ ?_
      intro p hp
      simp only [List.mem_map] at hp
      obtain ⟨q, hq, rfl⟩ := hp
      have := hI.lt q hq
      simp only
      omega
    · intro p hp
      rw [subs_append_sub] at hp
      simp only [List.mem_append, List.mem_singleton] at hp
      have : (s.cur + 1) % 2 ^ 64 = s.cur + 1 := Nat.mod_eq_of_lt (by omega)
      simp only [this]
      rcases hp with hp | rfl
      · have := hI.lt p hp; omega
      · simp
    · rw [subs_append_sub, List.pairwise_append]
      refine ⟨hI.asc, by simp, ?_⟩
      intro p hp q hq
      simp only [List.mem_singleton] at hq
      subst hq
      exact hI.lt p hp
  | unsub h =>
    simp only [step, Option.some.injEq, Prod.mk.injEq] at hs
    obtain ⟨rfl, rfl⟩ := hs
    have hh : handles (tr ++ [Ev.unsub (C := C) h]) = handles tr := by simp [handles]
    refine ⟨by rw [hh]; exact hI.hand, by rw [hh]; exact hI.cur, ?_, ?_, ?_⟩
    · rw [subs_append_unsub]
      simp only [erase]
      rw [hI.map, List.filter_map]
      congr 1
      refine List.filter_congr (fun p hp => ?_)
      have h1 := hI.lt p hp
      rw [hI.cur] at h1
      rw [hh] at hn
      have h2 := hu h (by simp)
      simp only [Function.comp_apply, ne_eq, decide_not, Bool.not_eq_eq_eq_not, Bool.not_not]
      have : ((p.1 : Int) = key h) ↔ p.1 = h := by
        unfold key
        rw [Nat.mod_eq_of_lt h2]
        split <;> omega
      simp only [this]
    · intro p hp
      rw [subs_append_unsub] at hp
      exact hI.lt p (List.mem_filter.1 hp).1
    · rw [subs_append_unsub]
      exact hI.asc.filter _
  | pub =>
    simp only [step] at hs
    split at hs
    · simp at hs
    · split at hs <;> (simp only [Option.some.injEq, Prod.mk.injEq] at hs; obtain ⟨rfl, rfl⟩ := hs)
      · exact inv_frame hI rfl rfl (by simp)
      · exact inv_frame hI rfl rfl (by simp)
  | next =>
    simp only [step] at hs
    split at hs
    · simp at hs
    · simp only [Option.some.injEq, Prod.mk.injEq] at hs
      obtain ⟨rfl, rfl⟩ := hs
      exact inv_frame hI rfl rfl (by simp)
    · split at hs <;> (simp only [Option.some.injEq, Prod.mk.injEq] at hs; obtain ⟨rfl, rfl⟩ := hs)
      · exact inv_frame hI rfl rfl (by simp)
      · exact inv_frame hI rfl rfl (by simp)

theorem inv_runs (as : List (Act C)) (s : State C) (es : List (Ev C)) (h : runs step State.init as = some (s, es))
    (hn : (handles es).length ≤ 2 ^ 31) (hu : ∀ h, Ev.unsub h ∈ es → h < 2 ^ 32) : Inv s es := by
  have := runs_hist (step := step) (fun s tr => (handles tr).length ≤ 2 ^ 31 → (∀ h, Ev.unsub h ∈ tr → h < 2 ^ 32) → Inv (C := C) s tr)
    (fun s a s' es tr hI hs hn hu => by
      refine inv_step (hI ?_ (fun h hm => hu h (List.mem_append_left _ hm))) hn
        (fun h hm => hu h (List.mem_append_right _ hm)) hs
      rw [handles_append, List.length_append] at hn
      omega)
    as State.init s es [] (fun _ _ => by constructor <;> simp [State.init, handles, subs]) h
  simpa using this hn hu

/-- **C77, handles.** The first 2^64 calls of `sub` return different handles. -/
theorem C77_handles_unique (as : List (Act C)) (s : State C) (es : List (Ev C))
    (h : runs step State.init as = some (s, es)) (hn : (handles es).length ≤ 2 ^ 64) : (handles es).Nodup := by
  have := runs_hist (step := step) (fun s tr => (handles tr).length ≤ 2 ^ 64 →
      handles tr = List.range (handles tr).length ∧ s.cur = (handles (C := C) tr).length % 2 ^ 64)
    (fun s a s' es tr hI hs hn => by
      have hn' : (handles tr).length ≤ 2 ^ 64 := by
        rw [handles_append, List.length_append] at hn; omega
      obtain ⟨h1, h2⟩ := hI hn'
      cases a with
      | sub c =>
        simp only [step, Option.some.injEq, Prod.mk.injEq] at hs
        obtain ⟨rfl, rfl⟩ := hs
        have hh : handles (tr ++ [Ev.sub s.cur c]) = handles tr ++ [s.cur] := by simp [handles]
        have hlt : (handles tr).length < 2 ^ 64 := by
          rw [hh, List.length_append, List.length_singleton] at hn; omega
        rw [Nat.mod_eq_of_lt hlt] at h2
        rw [hh, List.length_append, List.length_singleton]
        refine ⟨by rw [List.range_succ, ← h1, ← h2], by rw [← h2]⟩
      | unsub h =>
        simp only [step, Option.some.injEq, Prod.mk.injEq] at hs
        obtain ⟨rfl, rfl⟩ := hs
        rw [handles_same (by simp)]
        exact ⟨h1, h2⟩
      | pub =>
        simp only [step] at hs
        split at hs
        · simp at hs
        · split at hs <;> (simp only [Option.some.injEq, Prod.mk.injEq] at hs; obtain ⟨rfl, rfl⟩ := hs) <;>
            (rw [handles_same (by simp)]; exact ⟨h1, h2⟩)
      | next =>
        simp only [step] at hs
        split at hs
        · simp at hs
        · simp only [Option.some.injEq, Prod.mk.injEq] at hs
          obtain ⟨rfl, rfl⟩ := hs
          rw [handles_same (by simp)]; exact ⟨h1, h2⟩
        · split at hs <;> (simp only [Option.some.injEq, Prod.mk.injEq] at hs; obtain ⟨rfl, rfl⟩ := hs) <;>
            (rw [handles_same (by simp)]; exact ⟨h1, h2⟩))
    as State.init s es [] (fun _ => by simp [State.init, handles]) h
  rw [List.nil_append] at this
  rw [(this hn).1]
  exact List.nodup_range

/-! ## A publication whose callbacks leave the event alone -/

theorem after_mid (pre post : List (Int × C)) (k : Int) (c : C) (h : (pre ++ (k, c) :: post).Pairwise (fun p q => p.1 < q.1)) :
    after k (pre ++ (k, c) :: post) = post.head? := by
  unfold after
  rw [List.find?_append]
  have h1 : pre.find? (fun p => decide (k < p.1)) = none := by
    rw [List.find?_eq_none]
    intro p hp
    have := (List.pairwise_append.1 h).2.2 p hp (k, c) (by simp)
    simp only at this
    simp only [decide_eq_true_eq]
    omega
  rw [h1]
  simp only [Option.none_or, List.find?_cons, Int.lt_irrefl, decide_false]
  cases post with
  | nil => rfl
  | cons q post =>
    have h2 := (List.pairwise_append.1 h).2.1
    have := (List.pairwise_cons.1 h2).1 q (by simp)
    simp only at this
    simp [List.find?_cons, this]

theorem run_rest (m : List (Int × C)) (n : Nat) (hm : m.Pairwise (fun p q => p.1 < q.1)) :
    ∀ (post pre : List (Int × C)) (k : Int) (c : C), m = pre ++ (k, c) :: post →
      runs step ⟨m, n, some (k, false)⟩ (List.replicate (post.length + 1) .next) =
        some (⟨m, n, none⟩, post.map (fun p => .call p.1 p.2) ++ [.fin]) := by
  intro post
  induction post with
  | nil =>
    intro pre k c he
    have : after k m = none := by rw [he, after_mid pre [] k c (he ▸ hm)]; rfl
    simp [List.replicate, runs, step, this]
  | cons q post ih =>
    intro pre k c he
    obtain ⟨k', c'⟩ := q
    have : after k m = some (k', c') := by rw [he, after_mid pre _ k c (he ▸ hm)]; rfl
    have e := ih (pre ++ [(k, c)]) k' c' (by simp [he])
    rw [List.length_cons, List.replicate_succ, runs]
    simp only [step, this]
    rw [e]
    rfl

/-- **C77, publication.** After any history with at most 2^31 subscriptions, a publication whose callbacks do not touch the
event calls exactly the current subscriptions, once each, in the order they were made, and then returns. -/
theorem C77_publish_partial (as : List (Act C)) (s : State C) (es : List (Ev C))
    (h : runs step State.init as = some (s, es)) (hit : s.it = none)
    (hn : (handles es).length ≤ 2 ^ 31) (hu : ∀ h, Ev.unsub h ∈ es → h < 2 ^ 32) :
    runs step s (.pub :: List.replicate (subs es).length .next) =
      some (s, .start :: (subs es).map (fun p => .call p.1 p.2) ++ [.fin]) := by
  have hI := inv_runs as s es h hn hu
  have hm : s.map.Pairwise (fun p q => p.1 < q.1) := by
    rw [hI.map, List.pairwise_map]
    exact hI.asc.imp (fun h => by simp only; omega)
  have hlen : (subs es).length = s.map.length := by rw [hI.map, List.length_map]
  have hcalls : (subs es).map (fun p => Ev.call (C := C) p.1 p.2) = s.map.map (fun p => .call p.1 p.2) := by
    rw [hI.map, List.map_map]; rfl
  rw [hlen, hcalls]
  cases hs : s with
  | mk map cur it =>
    rw [hs] at hit hm
    simp only at hit hm ⊢
    subst hit
    cases map with
    | nil => rfl
    | cons p map =>
      obtain ⟨k, c⟩ := p
      have := run_rest ((k, c) :: map) cur hm map [] k c rfl
      rw [List.length_cons, runs]
      simp only [step, Option.isSome_none, Bool.false_eq_true, if_false]
      rw [this]
      rfl

/-- Subscriptions after an `unsub`: exactly the one with that handle is gone (the specification's own reading, spelled out). -/
theorem C77_unsub_exact (es : List (Ev C)) (h : Nat) (p : Nat × C) :
    p ∈ subs (es ++ [.unsub h]) ↔ p ∈ subs es ∧ p.1 ≠ h := by
  rw [subs_append_unsub]
  simp

/-! ## A publication whose callbacks subscribe and unsubscribe -/

/-- The callbacks called, with their handles. (Concerns co_event.h:20-53.) -/
def called (es : List (Ev C)) : List (Int × C) :=
  es.filterMap (fun e => match e with | .call k c => some (k, c) | _ => none)

/-- During a publication that started with subscriptions `l`; `es`: the trace since. (Concerns co_event.h:20-53.) -/
structure Pub (l : List (Int × C)) (s : State C) (es : List (Ev C)) : Prop where
  asc : (called es).Pairwise (fun p q => p.1 < q.1)
  le : ∀ k d, s.it = some (k, d) → ∀ p ∈ called es, p.1 ≤ k
  keep : ∀ p ∈ l, (∀ h, Ev.unsub h ∈ es → key h ≠ p.1) → p ∈ s.map
  done : ∀ p ∈ l, (∀ h, Ev.unsub h ∈ es → key h ≠ p.1) →
    (match s.it with | some (k, _) => p.1 ≤ k → p ∈ called es | none => p ∈ called es)

theorem map_sorted {s : State C} {tr : List (Ev C)} (hI : Inv s tr) : s.map.Pairwise (fun p q => p.1 < q.1) := by
  rw [hI.map, List.pairwise_map]
  exact hI.asc.imp (fun h => by simp only; omega)

theorem called_append (a b : List (Ev C)) : called (a ++ b) = called a ++ called b := by simp [called]

/-- In a sorted map, what `after k` finds is the least element above `k`. -/
theorem after_some {k : Int} {m : List (Int × C)} {q : Int × C} (hm : m.Pairwise (fun p q => p.1 < q.1))
    (h : after k m = some q) : q ∈ m ∧ k < q.1 ∧ ∀ p ∈ m, p.1 ≤ q.1 → p.1 ≤ k ∨ p = q := by
  unfold after at h
  rw [List.find?_eq_some_iff_append] at h
  obtain ⟨h1, as, bs, rfl, h2⟩ := h
  simp only [decide_eq_true_eq] at h1
  refine ⟨by simp, h1, ?_⟩
  intro p hp hle
  simp only [List.mem_append, List.mem_cons] at hp
  rcases hp with hp | hp | hp
  · have := h2 p hp
    simp only [Bool.not_eq_eq_eq_not, Bool.not_true, decide_eq_false_iff_not] at this
    left; omega
  · right; exact hp
  · have := (List.pairwise_cons.1 (List.pairwise_append.1 hm).2.1).1 p hp
    omega

theorem after_none {k : Int} {m : List (Int × C)} (h : after k m = none) : ∀ p ∈ m, p.1 ≤ k := by
  unfold after at h
  rw [List.find?_eq_none] at h
  intro p hp
  have := h p hp
  simp only [decide_eq_true_eq] at this
  omega

theorem pub_step {l : List (Int × C)} {s s' : State C} {a : Act C} {tr es fs : List (Ev C)} (hI : Inv s tr)
    (hI' : Inv s' (tr ++ fs)) (hP : Pub l s es) (ha : a ≠ .pub) (hub : Ev.ub ∉ fs) (hs : step s a = some (s', fs)) :
    Pub l s' (es ++ fs) := by
  cases a with
  | pub => exact absurd rfl ha
  | sub c =>
    simp only [step, Option.some.injEq, Prod.mk.injEq] at hs
    obtain ⟨rfl, rfl⟩ := hs
    have hc : called (es ++ [Ev.sub s.cur c]) = called es := by simp [called]
    have hu : ∀ p : Int × C, (∀ h, Ev.unsub h ∈ es ++ [Ev.sub s.cur c] → key h ≠ p.1) → ∀ h, Ev.unsub h ∈ es → key h ≠ p.1 :=
      fun p hp h hh => hp h (List.mem_append_left _ hh)
    have hmap : ∀ p ∈ s.map, p ∈ insert (key s.cur) c s.map := by
      have e1 := hI.map
      have e2 := hI'.map
      rw [subs_append_sub, List.map_append] at e2
      simp only at e2
      intro p hp
      rw [e2, ← e1]
      exact List.mem_append_left _ hp
    refine ⟨by rw [hc]; exact hP.asc, by rw [hc]; exact hP.le, fun p hp hh => ?_, fun p hp hh => ?_⟩
    · exact hmap p (hP.keep p hp (hu p hh))
    · rw [hc]; exact hP.done p hp (hu p hh)
  | unsub h =>
    simp only [step, Option.some.injEq, Prod.mk.injEq] at hs
    obtain ⟨rfl, rfl⟩ := hs
    have hc : called (es ++ [Ev.unsub (C := C) h]) = called es := by simp [called]
    have hu : ∀ p : Int × C, (∀ h', Ev.unsub h' ∈ es ++ [Ev.unsub (C := C) h] → key h' ≠ p.1) →
        (∀ h', Ev.unsub h' ∈ es → key h' ≠ p.1) ∧ key h ≠ p.1 :=
      fun p hp => ⟨fun h hh => hp h (List.mem_append_left _ hh), hp h (by simp)⟩
    refine ⟨by rw [hc]; exact hP.asc, ?_, fun p hp hh => ?_, fun p hp hh => ?_⟩
    · rw [hc]
      intro k d hit
      cases h' : s.it with
      | none => simp [h'] at hit
      | some q =>
        simp only [h', Option.some.injEq, Prod.mk.injEq] at hit
        exact hP.le k q.2 (by rw [h', ← hit.1])
    · simp only [erase, List.mem_filter, ne_eq, decide_not, Bool.not_eq_eq_eq_not, Bool.not_true, decide_eq_false_iff_not]
      exact ⟨hP.keep p hp (hu p hh).1, fun e => (hu p hh).2 e.symm⟩
    · rw [hc]
      have := hP.done p hp (hu p hh).1
      cases h' : s.it with
      | none => simpa [h'] using this
      | some q => simpa [h'] using this
  | next =>
    simp only [step] at hs
    split at hs
    · simp at hs
    · simp only [Option.some.injEq, Prod.mk.injEq] at hs
      obtain ⟨rfl, rfl⟩ := hs
      simp at hub
    · rename_i k hit
      split at hs
      · rename_i k' c hf
        simp only [Option.some.injEq, Prod.mk.injEq] at hs
        obtain ⟨rfl, rfl⟩ := hs
        obtain ⟨a1, a2, a3⟩ := after_some (map_sorted hI) hf
        have hc : called (es ++ [Ev.call k' c]) = called es ++ [(k', c)] := by simp [called]
        have hu : ∀ p : Int × C, (∀ h, Ev.unsub h ∈ es ++ [Ev.call k' c] → key h ≠ p.1) → ∀ h, Ev.unsub h ∈ es → key h ≠ p.1 :=
          fun p hp h hh => hp h (List.mem_append_left _ hh)
        refine ⟨?_, ?_, fun p hp hh => hP.keep p hp (hu p hh), fun p hp hh => ?_⟩
        · rw [hc, List.pairwise_append]
          refine ⟨hP.asc, by simp, fun p hp q hq => ?_⟩
          simp only [List.mem_singleton] at hq
          subst hq
          have := hP.le k false hit p hp
          simp only at a2 ⊢
          omega
        · intro k2 d hk p hp
          simp only [Option.some.injEq, Prod.mk.injEq] at hk
          obtain ⟨rfl, rfl⟩ := hk
          rw [hc, List.mem_append, List.mem_singleton] at hp
          rcases hp with hp | rfl
          · have := hP.le k false hit p hp
            simp only at a2
            omega
          · exact Int.le_refl _
        · simp only
          intro hle
          rw [hc, List.mem_append, List.mem_singleton]
          rcases a3 p (hP.keep p hp (hu p hh)) hle with h3 | h3
          · left
            have := hP.done p hp (hu p hh)
            rw [hit] at this
            exact this h3
          · right; exact h3
      · rename_i hf
        simp only [Option.some.injEq, Prod.mk.injEq] at hs
        obtain ⟨rfl, rfl⟩ := hs
        have hc : called (es ++ [Ev.fin (C := C)]) = called es := by simp [called]
        have hu : ∀ p : Int × C, (∀ h, Ev.unsub h ∈ es ++ [Ev.fin (C := C)] → key h ≠ p.1) → ∀ h, Ev.unsub h ∈ es → key h ≠ p.1 :=
          fun p hp h hh => hp h (List.mem_append_left _ hh)
        refine ⟨by rw [hc]; exact hP.asc, by simp, fun p hp hh => hP.keep p hp (hu p hh), fun p hp hh => ?_⟩
        simp only
        rw [hc]
        have := hP.done p hp (hu p hh)
        rw [hit] at this
        exact this (after_none hf p (hP.keep p hp (hu p hh)))

/-- **C77, publication with callbacks that change the event.** Unless a callback unsubscribes itself (`ub`), the callbacks are
called in the order of their handles, so at most once each, and when the publication has returned every subscription that
existed when it began and was not removed meanwhile has been called. -/
theorem C77_publish_reentrant_partial (as bs : List (Act C)) (s s1 s2 : State C) (es e1 e2 : List (Ev C))
    (h : runs step State.init as = some (s, es)) (h1 : step s .pub = some (s1, e1))
    (h2 : runs step s1 bs = some (s2, e2)) (hb : Act.pub ∉ bs) (hub : Ev.ub ∉ e2)
    (hn : (handles (es ++ e1 ++ e2)).length ≤ 2 ^ 31) (hu : ∀ h, Ev.unsub h ∈ es ++ e1 ++ e2 → h < 2 ^ 32) :
    (called (e1 ++ e2)).Pairwise (fun p q => p.1 < q.1) ∧
    (s2.it = none → ∀ p ∈ subs es, Ev.unsub p.1 ∉ e2 → ((p.1 : Int), p.2) ∈ called (e1 ++ e2)) := by
  have hn1 : (handles (es ++ e1)).length ≤ 2 ^ 31 := by rw [handles_append, List.length_append] at hn; omega
  have hn0 : (handles es).length ≤ 2 ^ 31 := by rw [handles_append, List.length_append] at hn1; omega
  have I0 := inv_runs as s es h hn0 (fun x hx => hu x (by simp [hx]))
  have I1 : Inv s1 (es ++ e1) := inv_step I0 hn1 (fun x hx => hu x (by simp [hx])) h1
  have P1 : Pub s.map s1 e1 := by
    simp only [step] at h1
    split at h1
    · simp at h1
    · rename_i hit
      split at h1 <;> (simp only [Option.some.injEq, Prod.mk.injEq] at h1; obtain ⟨rfl, rfl⟩ := h1)
      · rename_i hm
        constructor <;> simp [called, hm]
      · rename_i k c m hm
        have hs := map_sorted I0
        rw [hm] at hs
        refine ⟨by simp [called], ?_, ?_, ?_⟩
        · intro k' d hk p hp
          simp only [Option.some.injEq, Prod.mk.injEq] at hk
          simp only [called, List.filterMap_cons, List.filterMap_nil, List.mem_singleton] at hp
          subst hp
          simp only
          omega
        · intro p hp _; exact hp
        · intro p hp _
          simp only
          intro hle
          rw [hm] at hp
          simp only [List.mem_cons] at hp
          rcases hp with rfl | hp
          · simp [called]
          · have := (List.pairwise_cons.1 hs).1 p hp
            simp only at this
            omega
  have key0 : ∀ (bs : List (Act C)) (s1 s2 : State C) (tr es e2 : List (Ev C)), Inv s1 tr → Pub s.map s1 es →
      runs step s1 bs = some (s2, e2) → Act.pub ∉ bs → Ev.ub ∉ e2 → (handles (tr ++ e2)).length ≤ 2 ^ 31 →
      (∀ h, Ev.unsub h ∈ tr ++ e2 → h < 2 ^ 32) → Pub s.map s2 (es ++ e2) := by
    intro bs
    induction bs with
    | nil =>
      intro s1 s2 tr es e2 _ hP hr _ _ _ _
      simp only [runs, Option.some.injEq, Prod.mk.injEq] at hr
      obtain ⟨rfl, rfl⟩ := hr
      simpa using hP
    | cons a bs ih =>
      intro s1 s2 tr es e2 hI hP hr hb hub hn hu
      obtain ⟨s3, f1, f2, g1, g2, rfl⟩ := runs_cons hr
      simp only [List.mem_cons, not_or] at hb
      simp only [List.mem_append, not_or] at hub
      have hn' : (handles (tr ++ f1)).length ≤ 2 ^ 31 := by
        rw [← List.append_assoc, handles_append, List.length_append] at hn; omega
      have I3 : Inv s3 (tr ++ f1) := inv_step hI hn' (fun x hx => hu x (by simp [hx])) g1
      have P3 := pub_step hI I3 hP (Ne.symm hb.1) hub.1 g1
      rw [← List.append_assoc] at hn hu ⊢
      exact ih s3 s2 (tr ++ f1) (es ++ f1) f2 I3 P3 g2 hb.2 hub.2 hn hu
  have P2 := key0 bs s1 s2 (es ++ e1) e1 e2 I1 P1 h2 hb hub hn hu
  refine ⟨P2.asc, ?_⟩
  intro hit p hp hnu
  have hpm : ((p.1 : Int), p.2) ∈ s.map := by
    rw [I0.map]
    exact List.mem_map_of_mem hp
  have hlt : p.1 < 2 ^ 31 := by
    have := I0.lt p hp
    rw [I0.cur] at this
    omega
  have := P2.done _ hpm ?_
  · rw [hit] at this; exact this
  · intro x hx
    simp only [List.mem_append] at hx
    have hx2 : Ev.unsub x ∈ e2 := by
      rcases hx with hx | hx
      · simp only [step] at h1
        split at h1
        · simp at h1
        · split at h1 <;> (simp only [Option.some.injEq, Prod.mk.injEq] at h1; obtain ⟨rfl, rfl⟩ := h1) <;> simp at hx
      · exact hx
    have hxl := hu x (by simp [hx2])
    intro e
    simp only at e
    unfold key at e
    rw [Nat.mod_eq_of_lt hxl] at e
    have : x = p.1 := by
      split at e <;> omega
    exact hnu (this ▸ hx2)

/-! ## Where it fails -/

/-- **C77, negation.** A callback that unsubscribes itself during a publication makes it advance an invalid iterator. -/
theorem C77_self_unsub_ub : (runs step (State.init (C := Nat)) [.sub 7, .pub, .unsub 0, .next]).map (·.2) =
    some [.sub 0 7, .start, .call 0 7, .unsub 0, .ub] := by decide

/-- Subscribing and unsubscribing `n` times, from handle `m`. (Concerns co_event.h:20-53.) -/
def churn (c : C) (m : Nat) : Nat → List (Act C)
  | 0 => []
  | n + 1 => .sub c :: .unsub m :: churn c (m + 1) n

theorem run_churn (c : C) (b : List (Int × C)) (hb : ∀ p ∈ b, p.1 = 0) (hb2 : b.length ≤ 1) : ∀ n m, 0 < m → m + n ≤ 2 ^ 32 →
    ∃ es, runs step ⟨b, m, none⟩ (churn c m n) = some (⟨b, m + n, none⟩, es) ∧
      ∀ l : List (Nat × C), (∀ p ∈ l, p.1 < m) → es.foldl note l = l := by
  intro n
  induction n with
  | zero => intro m _ _; exact ⟨[], rfl, fun _ _ => rfl⟩
  | succ n ih =>
    intro m hm0 hm
    obtain ⟨es, h1, h2⟩ := ih (m + 1) (by omega) (by omega)
    have hk : key m ≠ 0 := by
      unfold key
      rw [Nat.mod_eq_of_lt (by omega)]
      split <;> omega
    have he : erase (key m) (insert (key m) c b) = b := by
      match b, hb, hb2 with
      | [], _, _ => simp [insert, erase]
      | [(k, d)], hb, _ =>
        have : k = 0 := hb (k, d) (by simp)
        subst this
        simp only [insert]
        split
        · simp [erase, Ne.symm hk]
        · simp [erase, Ne.symm hk]
    refine ⟨.sub m c :: .unsub m :: es, ?_, ?_⟩
    · simp only [churn, runs, step, he]
      have : (m + 1) % 2 ^ 64 = m + 1 := Nat.mod_eq_of_lt (by omega)
      simp only [this]
      rw [h1]
      simp [Nat.add_assoc, Nat.add_comm 1 n]
    · intro l hl
      simp only [List.foldl_cons, note, List.filter_append, List.filter_cons, ne_eq, not_true_eq_false, decide_false,
        Bool.false_eq_true, if_false, List.filter_nil, List.append_nil]
      rw [List.filter_eq_self.2 (fun p hp => by have := hl p hp; simp only [decide_not, Bool.not_eq_eq_eq_not, Bool.not_true, decide_eq_false_iff_not]; omega)]
      exact h2 l (fun p hp => by have := hl p hp; omega)

/-- **C77, negation.** The handle is truncated to `int`: of two subscriptions, with 2^31 - 1 others made and removed in between,
the one made last is called first. -/
theorem C77_order_wraps : ∃ s es,
    runs step (State.init (C := Nat)) ([.sub 1] ++ (churn 0 1 (2 ^ 31 - 1) ++ [.sub 2])) = some (s, es) ∧
    subs es = [(0, 1), (2 ^ 31, 2)] ∧ (runs step s [.pub, .next, .next]).map (fun p => calls p.2) = some [2, 1] := by
  obtain ⟨es, h1, h2⟩ := run_churn (C := Nat) 0 [(0, 1)] (by simp) (by simp) (2 ^ 31 - 1) 1 (by omega) (by omega)
  have h0 : runs step (State.init (C := Nat)) [.sub 1] = some (⟨[(0, 1)], 1, none⟩, [.sub 0 1]) := by decide
  have h3 : runs step (⟨[(0, 1)], 1 + (2 ^ 31 - 1), none⟩ : State Nat) [.sub 2] =
      some (⟨[(-2 ^ 31, 2), (0, 1)], 2 ^ 31 + 1, none⟩, [.sub (2 ^ 31) 2]) := by decide
  refine ⟨_, _, runs_append h0 (runs_append h1 h3), ?_, by decide⟩
  simp only [subs, List.foldl_append, List.foldl_cons, List.foldl_nil, note, List.nil_append]
  rw [h2 [(0, 1)] (by simp)]
  rfl

/-- **C77, negation.** With 2^32 - 1 others made and removed in between, the second subscription replaces the first: two are
subscribed, only one is called. -/
theorem C77_subscription_replaced : ∃ s es,
    runs step (State.init (C := Nat)) ([.sub 1] ++ (churn 0 1 (2 ^ 32 - 1) ++ [.sub 2])) = some (s, es) ∧
    subs es = [(0, 1), (2 ^ 32, 2)] ∧ (runs step s [.pub, .next]).map (fun p => calls p.2) = some [2] := by
  obtain ⟨es, h1, h2⟩ := run_churn (C := Nat) 0 [(0, 1)] (by simp) (by simp) (2 ^ 32 - 1) 1 (by omega) (by omega)
  have h0 : runs step (State.init (C := Nat)) [.sub 1] = some (⟨[(0, 1)], 1, none⟩, [.sub 0 1]) := by decide
  have h3 : runs step (⟨[(0, 1)], 1 + (2 ^ 32 - 1), none⟩ : State Nat) [.sub 2] =
      some (⟨[(0, 2)], 2 ^ 32 + 1, none⟩, [.sub (2 ^ 32) 2]) := by decide
  refine ⟨_, _, runs_append h0 (runs_append h1 h3), ?_, by decide⟩
  simp only [subs, List.foldl_append, List.foldl_cons, List.foldl_nil, note, List.nil_append]
  rw [h2 [(0, 1)] (by simp)]
  rfl

/-! ## A concrete history -/

example : (runs step (State.init (C := Nat)) [.sub 10, .sub 11, .sub 12, .unsub 1, .pub, .next, .next]).map (fun p => calls p.2)
    = some [10, 12] := by decide

/-- A callback subscribes another one and removes a later one. -/
example : (runs step (State.init (C := Nat)) [.sub 10, .sub 11, .pub, .sub 12, .unsub 1, .next, .next]).map (fun p => calls p.2)
    = some [10, 12] := by decide

end Verif.Event
