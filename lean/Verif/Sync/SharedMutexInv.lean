import Verif.Sync.RemoveIf
import Verif.Base.Sum

/-! # Invariant of the co_shared_mutex model, as long as no wake-up sees a mixed queue -/

namespace Verif.SharedMutex
open RwSpec

@[grind =] theorem mem_insertOwner (l : List Tid) (t u : Tid) :
    u ∈ insertOwner l t ↔ u = t ∨ u ∈ l := by
  unfold insertOwner; grind

theorem nodup_insertOwner {l : List Tid} (h : l.Nodup) (t : Tid) : (insertOwner l t).Nodup := by
  unfold insertOwner; split <;> simp_all

theorem mem_foldl_insertOwner (w : List Tid) : ∀ (l : List Tid) (u : Tid),
    u ∈ w.foldl insertOwner l ↔ u ∈ l ∨ u ∈ w := by
  induction w with
  | nil => simp
  | cons a w ih => intro l u; simp only [List.foldl_cons, ih, mem_insertOwner]; grind

theorem nodup_foldl_insertOwner (w : List Tid) : ∀ (l : List Tid), l.Nodup →
    (w.foldl insertOwner l).Nodup := by
  induction w with
  | nil => simp
  | cons a w ih => intro l h; exact ih _ (nodup_insertOwner h a)

theorem foldl_upd_false (w : List Tid) : ∀ (f : Tid → Bool) (u : Tid),
    w.foldl (fun f v => upd f v false) f u = if u ∈ w then false else f u := by
  induction w with
  | nil => simp
  | cons a w ih => intro f u; simp only [List.foldl_cons, ih]; grind

/-- What is true of coroutine `t` at its program point. (Concerns co_shared_mutex.cpp:15-218.) -/
def Loc (s : St) (t : Tid) : Prop :=
  match s.pc t with
  | .out | .ulRet _ _ =>
    (∀ m, s.hold t = some m → s.typ = some m) ∧ (s.hold t ≠ none ↔ t ∈ s.owners) ∧
      (∀ m, (m, t) ∉ s.queue) ∧ s.asleep t = false
  | .tlAcq _ | .tlTest _ | .tlRet _ false | .lkAcq _ | .lkFast _ | .lkSpin _ | .lkYield _
  | .lkReacq _ | .lkCheck _ =>
    s.hold t = none ∧ t ∉ s.owners ∧ (∀ m, (m, t) ∉ s.queue) ∧ s.asleep t = false
  | .lkLoop m =>
    s.hold t = none ∧ (∀ m', (m', t) ∈ s.queue ↔ m' = m ∧ t ∉ s.owners) ∧
      (t ∈ s.owners → s.typ = some m) ∧ s.asleep t = false
  | .lkSleep m =>
    s.hold t = none ∧ (∀ m', (m', t) ∈ s.queue ↔ m' = m) ∧ t ∉ s.owners ∧ s.asleep t = true
  | .lkParked m =>
    s.hold t = none ∧ (∀ m', (m', t) ∈ s.queue ↔ m' = m ∧ t ∉ s.owners) ∧
      (t ∈ s.owners → s.typ = some m) ∧ (s.asleep t = true ↔ t ∉ s.owners)
  | .lkReacq2 m | .lkRet m | .tlRet m true =>
    s.hold t = none ∧ t ∈ s.owners ∧ s.typ = some m ∧ (∀ m, (m, t) ∉ s.queue) ∧ s.asleep t = false
  | .ulAcq m h | .ulTest m h =>
    (h = true → s.hold t = none ∧ t ∈ s.owners ∧ s.typ = some m) ∧
    (h = false → s.hold t ≠ some m ∧ (∀ m, s.hold t = some m → s.typ = some m) ∧
      (s.hold t ≠ none ↔ t ∈ s.owners)) ∧
      (∀ m, (m, t) ∉ s.queue) ∧ s.asleep t = false

/-- The invariant. (Concerns co_shared_mutex.cpp:15-218.) -/
structure Inv (s : St) : Prop where
  loc : ∀ t, Loc s t
  spin : ∀ t, (s.pc t).spin = true ↔ s.spin = some t
  nodupQ : (s.queue.map Prod.snd).Nodup
  nodupO : s.owners.Nodup
  free : s.owners = [] → s.queue = []
  typ : s.typ = none ↔ s.owners = []
  uniq : s.typ = some .unique → ∃ t, s.owners = [t]

theorem inv_init : Inv St.init := by
  constructor <;> simp [St.init, Loc, Pc.spin]

/-- `Loc` only depends on these observations. -/
theorem Loc.frame {s s' : St} {u : Tid} (h : Loc s u) (hp : s'.pc u = s.pc u)
    (hh : s'.hold u = s.hold u) (ha : s'.asleep u = s.asleep u)
    (ho : u ∈ s'.owners ↔ u ∈ s.owners) (ht : u ∈ s.owners → s'.typ = s.typ)
    (hq : ∀ m, (m, u) ∈ s'.queue ↔ (m, u) ∈ s.queue) : Loc s' u := by
  simp only [Loc, hp, hh, ha, ho, hq] at *
  by_cases hu : u ∈ s.owners
  · simp only [ht hu]; exact h
  · cases hpc : s.pc u <;> simp only [hpc] at h ⊢ <;> (try split at h) <;> grind

theorem loc_hold {s : St} {t : Tid} (h : Loc s t) {m : Mode} (hm : s.hold t = some m) :
    t ∈ s.owners ∧ s.typ = some m := by
  simp only [Loc] at h
  cases hpc : s.pc t <;> simp only [hpc] at h <;> grind

/-- Taking a mutex that may be taken keeps the invariant, if nobody but `t` is affected. -/
theorem inv_take {s : St} (h : Inv s) {t : Tid} {m : Mode} {p : Pc}
    (hct : s.canTake m = true) (hnt : t ∉ s.owners) (hsp : p.spin = (s.pc t).spin)
    (hl : Loc (s.take t m p) t) : Inv (s.take t m p) := by
  obtain ⟨hloc, h1, h2, h3, h4, h5, h6⟩ := h
  have hother : ∀ u, u ≠ t → (s.take t m p).typ = s.typ ∨ u ∉ s.owners := by
    intro u hu
    cases m <;> simp only [St.canTake, St.take] at hct ⊢
    · right; simp at hct; simp [hct]
    · by_cases hs : s.typ = some .shared
      · left; exact hs.symm
      · right
        have : s.typ = none := by grind
        rw [h5.1 this]; simp
  refine ⟨fun u => ?_, fun u => ?_, h2, ?_, ?_, ?_, ?_⟩
  · by_cases hu : u = t
    · subst hu; exact hl
    · refine (hloc u).frame (by simp [St.take, hu]) rfl rfl ?_ ?_ (fun _ => Iff.rfl)
      · simp [St.take, mem_insertOwner, hu]
      · intro hin; rcases hother u hu with h | h
        · exact h
        · exact absurd hin h
  · simp only [St.take]
    by_cases hu : u = t
    · subst hu; simp [hsp, h1]
    · simp [hu, h1]
  · exact nodup_insertOwner h3 t
  · intro he
    have : t ∈ (s.take t m p).owners := by simp [St.take, mem_insertOwner]
    simp [he] at this
  · simp only [St.take]
    have : insertOwner s.owners t ≠ [] := by
      intro he
      have : t ∈ insertOwner s.owners t := by simp [mem_insertOwner]
      simp [he] at this
    simp [this]
  · intro he
    simp only [St.take, Option.some.injEq] at he
    subst he
    simp only [St.canTake, List.isEmpty_iff] at hct
    exact ⟨t, by simp [St.take, hct, insertOwner]⟩

/-- Changing only the program point and the spinlock. -/
theorem inv_move {s s' : St} (h : Inv s) {t : Tid}
    (hpc : ∀ u, u ≠ t → s'.pc u = s.pc u) (ht : s'.typ = s.typ)
    (ho : s'.owners = s.owners) (hq : ∀ u m, u ≠ t → ((m, u) ∈ s'.queue ↔ (m, u) ∈ s.queue))
    (hqn : (s'.queue.map Prod.snd).Nodup) (hf : s.owners = [] → s'.queue = [])
    (ha : ∀ u, u ≠ t → s'.asleep u = s.asleep u) (hh : ∀ u, u ≠ t → s'.hold u = s.hold u)
    (hsp : ∀ u, (s'.pc u).spin = true ↔ s'.spin = some u) (hl : Loc s' t) : Inv s' := by
  obtain ⟨hloc, h1, h2, h3, h4, h5, h6⟩ := h
  refine ⟨fun u => ?_, hsp, hqn, by rw [ho]; exact h3, by rw [ho]; exact hf, by rw [ht, ho]; exact h5,
    by rw [ht, ho]; exact h6⟩
  by_cases hu : u = t
  · subst hu; exact hl
  · exact (hloc u).frame (hpc u hu) (hh u hu) (ha u hu) (by rw [ho]) (fun _ => ht)
      (fun m => hq u m hu)

/-- A wake-up that does not see a mixed queue. -/
theorem wake_cases (s : St) (hmix : ∀ u rest, s.queue = (.shared, u) :: rest → s.owners = [] →
      ∀ e ∈ s.queue, e.1 = .shared) :
    (s.owners ≠ [] ∧ s.wake = s) ∨
    (s.owners = [] ∧ s.queue = [] ∧ s.wake = { s with typ := none }) ∨
    (∃ u rest, s.owners = [] ∧ s.queue = (.unique, u) :: rest ∧
      s.wake = { s with typ := some .unique, owners := [u], queue := rest,
                        asleep := upd s.asleep u false }) ∨
    (s.owners = [] ∧ s.queue ≠ [] ∧ (∀ e ∈ s.queue, e.1 = .shared) ∧
      s.wake = { s with typ := some .shared, queue := [],
                        owners := (s.queue.map Prod.snd).foldl insertOwner [],
                        asleep := (s.queue.map Prod.snd).foldl (fun f v => upd f v false) s.asleep }) := by
  unfold St.wake
  split
  · rename_i h; left; simp [h]
  · rename_i ho
    split
    · rename_i hq; right; left; simp [ho, hq]
    · rename_i u rest hq
      right; right; left
      exact ⟨u, rest, ho, hq, by simp [insertOwner, ho]⟩
    · rename_i u rest hq
      right; right; right
      have hall := hmix u rest hq ho
      have hfil : s.queue.filter (fun x => !isShared x) = [] := by
        rw [List.filter_eq_nil_iff]; intro e he; simp [isShared, hall e he]
      rw [← hq, removeIf_eq, hfil]
      refine ⟨ho, by simp [hq], hall, ?_⟩
      simp [ho]

theorem not_mixed {s : St} {t : Tid} {b : Bool} {m : Mode} {h : Bool}
    (hm : ¬ MixedWake s (.run t b)) (hpc : s.pc t = .ulTest m h) (htyp : s.typ = some m)
    (hin : t ∈ s.owners) :
    ∀ u rest, s.queue = (.shared, u) :: rest → s.owners.erase t = [] →
      ∀ e ∈ s.queue, e.1 = .shared := by
  intro u rest hq he e hemem
  cases hmode : e.1 with
  | shared => rfl
  | unique =>
    exfalso
    apply hm
    refine ⟨m, h, hpc, htyp, ?_, ⟨u, rest, hq⟩, e.2, ?_⟩
    · rcases List.erase_eq_nil_iff.1 he with h | h
      · simp [h] at hin
      · exact h
    · rw [← hmode]; exact hemem

theorem inv_step (s : St) (a : Act) (s' : St) (es : List Ev) (h : Inv s) (hm : ¬ MixedWake s a)
    (hs : step s a = some (s', es)) : Inv s' := by
  have hI := h
  obtain ⟨hl, h1, h2, h3, h4, h5, h6⟩ := h
  cases a with
  | callLock m t | callTry m t | callUnlock m t =>
    simp only [step, St.goto] at hs
    have hlt := hl t
    split at hs <;> try cases hs
    refine inv_move hI (t := t) (fun u hu => by simp [hu]) rfl rfl (fun _ _ _ => Iff.rfl) h2 h4
      (fun _ _ => rfl) (fun u hu => by first | rfl | grind) (fun u => by grind [Pc.spin]) ?_
    simp_all [Loc]
    try grind
  | run t b =>
    simp only [step, runStep] at hs
    have hlt := hl t
    have h1t := h1 t
    cases hp : s.pc t
    case ulTest m hh =>
      simp only [hp] at hs
      simp only [Loc, hp] at hlt
      split at hs
      · cases hs
        refine inv_move hI (t := t) (fun u hu => by simp [St.goto, hu]) rfl rfl
          (fun _ _ _ => Iff.rfl) h2 h4
          (fun _ _ => rfl) (fun u hu => rfl) (fun u => by simp only [St.goto]; grind [Pc.spin]) ?_
        simp only [Loc, St.goto, upd_same]
        grind
      · rename_i hcond
        have htyp : s.typ = some m := by grind
        have hin : t ∈ s.owners := by grind
        have hspin : s.spin = some t := by grind [Pc.spin]
        have hmix := not_mixed hm hp htyp hin
        have hne : ∀ u, u ≠ t → (u ∈ s.owners.erase t ↔ u ∈ s.owners) := by
          intro u hu; rw [List.mem_erase_of_ne hu]
        have hnt : t ∉ s.owners.erase t := by
          rw [List.Nodup.mem_erase_iff h3]; simp
        have hhold : s.hold t = none := by
          cases hh with
          | true => exact (hlt.1 rfl).1
          | false =>
            obtain ⟨hn, hty, -⟩ := hlt.2.1 rfl
            cases hho : s.hold t with
            | none => rfl
            | some m' =>
              have := hty m' hho
              rw [htyp] at this; cases this
              exact absurd hho hn
        cases hs
        rcases wake_cases { s with owners := s.owners.erase t } (fun u rest hq he => hmix u rest hq he)
          with ⟨ho, hw⟩ | ⟨ho, hq, hw⟩ | ⟨v, rest, ho, hq, hw⟩ | ⟨ho, hq, hall, hw⟩ <;>
          rw [hw] <;> simp only [St.goto] at *
        · refine ⟨fun u => ?_, fun u => by simp only; grind [Pc.spin], h2, h3.erase t, fun h => absurd h ho,
            by simp only; constructor
               · intro h; rw [htyp] at h; cases h
               · intro h; exact absurd h ho, ?_⟩
          · by_cases hu : u = t
            · subst hu; simp only [Loc, upd_same]; grind
            · exact (hl u).frame (by simp [hu]) rfl rfl (hne u hu) (fun _ => rfl)
                (fun _ => Iff.rfl)
          · simp only; intro h
            obtain ⟨w, how⟩ := h6 h
            have : w = t := by grind
            subst this
            simp [how] at ho
        · refine ⟨fun u => ?_, fun u => by simp only; grind [Pc.spin], h2, h3.erase t, fun _ => hq,
            by simp [ho], by simp⟩
          by_cases hu : u = t
          · subst hu; simp only [Loc, upd_same]; grind
          · have hnu : u ∉ s.owners := by rw [← hne u hu, ho]; simp
            exact (hl u).frame (by simp [hu]) rfl rfl (hne u hu) (fun h => absurd h hnu)
              (fun _ => Iff.rfl)
        · have hvt : v ≠ t := by grind
          have hnod : (rest.map Prod.snd).Nodup ∧ v ∉ rest.map Prod.snd := by
            rw [hq] at h2; simp only [List.map_cons, List.nodup_cons] at h2; exact ⟨h2.2, h2.1⟩
          refine ⟨fun u => ?_, fun u => by simp only; grind [Pc.spin], hnod.1, by simp,
            by simp, by simp, fun _ => ⟨v, rfl⟩⟩
          by_cases hu : u = t
          · subst hu; simp only [Loc, upd_same]; grind
          · have hnu : u ∉ s.owners := by rw [← hne u hu, ho]; simp
            by_cases huv : u = v
            · subst huv
              have hlu := hl u
              have hns : (s.pc u).spin ≠ true := by
                have := h1 u; grind
              have hnr : ∀ m, (m, u) ∉ rest := by
                intro m hmem; exact hnod.2 (List.mem_map_of_mem (f := Prod.snd) hmem)
              simp only [Loc, upd_other _ _ hu, upd_same] at hlu ⊢
              cases hpu : s.pc u <;> simp only [hpu, Pc.spin] at hlu hns ⊢ <;> grind
            · refine (hl u).frame (by simp [hu]) rfl (by simp [huv]) (by grind)
                (fun h => absurd h hnu) (fun m => ?_)
              rw [hq]; simp only; grind
        · refine ⟨fun u => ?_, fun u => by simp only; grind [Pc.spin], by simp,
            nodup_foldl_insertOwner _ _ (by simp), by simp, ?_, by simp⟩
          · by_cases hu : u = t
            · subst hu
              have hnq : u ∉ s.queue.map Prod.snd := by
                intro hmem
                obtain ⟨e, he, rfl⟩ := List.mem_map.1 hmem
                exact hlt.2.2.1 e.1 he
              simp only [Loc, upd_same, mem_foldl_insertOwner, foldl_upd_false]
              grind
            · have hnu : u ∉ s.owners := by rw [← hne u hu, ho]; simp
              by_cases huq : u ∈ s.queue.map Prod.snd
              · obtain ⟨e, he, rfl⟩ := List.mem_map.1 huq
                have hsh := hall e he
                have he' : (Mode.shared, e.2) ∈ s.queue := by rw [← hsh]; exact he
                have hlu := hl e.2
                have hns : (s.pc e.2).spin ≠ true := by
                  have := h1 e.2; grind
                simp only [Loc, upd_other _ _ hu, mem_foldl_insertOwner, foldl_upd_false, huq]
                  at hlu ⊢
                cases hpu : s.pc e.2 <;> simp only [hpu, Pc.spin] at hlu hns ⊢ <;> grind
              · have hnq : ∀ m, (m, u) ∉ s.queue := by
                  intro m hmem; exact huq (List.mem_map_of_mem (f := Prod.snd) hmem)
                refine (hl u).frame (by simp [hu]) rfl ?_ ?_ (fun h => absurd h hnu) (fun m => ?_)
                · simp only [foldl_upd_false, huq, if_false]
                · simp only [mem_foldl_insertOwner]; grind
                · simp [hnq m]
          · have : (s.queue.map Prod.snd).foldl insertOwner [] ≠ [] := by
              intro he
              cases hqq : s.queue with
              | nil => exact hq hqq
              | cons e q =>
                have : e.2 ∈ (s.queue.map Prod.snd).foldl insertOwner [] := by
                  rw [mem_foldl_insertOwner]; simp [hqq]
                simp [he] at this
            simp [this]
    case lkFast m | lkSpin m | lkCheck m | tlTest m =>
      all_goals
        simp only [hp] at hs
        simp only [Loc, hp] at hlt
        (repeat' split at hs) <;> (try cases hs)
        all_goals first
          | (refine inv_take hI (by assumption) hlt.2.1 (by simp [hp, Pc.spin]) ?_
             simp only [Loc, St.take, upd_same, mem_insertOwner]
             grind)
          | (refine inv_move hI (t := t) (fun u hu => by simp [St.goto, hu]) rfl rfl
               (fun _ _ hu => by simp [St.goto, hu]) ?_ ?_
               (fun _ _ => rfl) (fun u hu => rfl)
               (fun u => by simp only [St.goto]; grind [Pc.spin]) ?_
             · simp only [St.goto, List.map_append]
               first
                 | exact h2
                 | (rw [List.nodup_append]
                    refine ⟨h2, by simp, ?_⟩
                    intro a ha b hb
                    obtain ⟨e, he, rfl⟩ := List.mem_map.1 ha
                    simp only [List.map_cons, List.map_nil, List.mem_singleton] at hb
                    subst hb
                    intro heq
                    exact hlt.2.2.1 e.1 (by rw [← heq]; exact he))
             · simp only [St.goto]
               first
                 | exact h4
                 | (intro he; exfalso
                    rename_i hct
                    cases m <;> simp_all [St.canTake])
             · simp only [Loc, St.goto, upd_same]
               grind)
    all_goals
      simp only [hp, St.acquire, St.goto] at hs
      simp only [Loc, hp] at hlt
      (repeat' split at hs) <;> (try cases hs)
      all_goals
        refine inv_move hI (t := t) (fun u hu => by simp [hu]) rfl rfl (fun _ _ _ => Iff.rfl) h2 h4
          (fun u hu => by first | rfl | simp [hu]) (fun u hu => by first | rfl | grind)
          (fun u => by grind [Pc.spin]) ?_
        simp only [Loc, upd_same]
        grind

end Verif.SharedMutex
