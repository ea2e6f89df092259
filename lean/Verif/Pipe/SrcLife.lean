import Verif.Pipe.PipeProps

/-!
# C109: a pipeline reads only data that exists

The coroutine of a source outlives the expression that built the pipeline: it is detached (co_pipeline.h:140, 168, 199, 230, 247). What it reads
is either its own (a copied collection, 220; a copied function, 184; the copied bounds of a range, 130) or belongs to the program: the
iterators (158), those of an array (171-176), and the elements of an `initializer_list` (237), which is copied without its
elements; they die with the full expression. This file adds to the pipeline of `Verif.Pipe.Pipe` the death of that data.
-/

namespace Verif.Pipe
open Verif

variable {α : Type}

/-! ## Without `take` the end of the consumer is the end of the source -/

/-- Is it `take`? (co_pipeline.h:411-435) -/
def Stage.takes : Stage α → Bool
  | .take _ => true
  | _ => false

/-- Places of a stage that it gets to only after it has found its input closed. (Concerns co_pipeline.h:140-435.) -/
def Late (g : Stage α) (pc : Pc α) : Prop :=
  match pc with
  | .close => True
  | .done => True
  | .put _ _ => ∃ f z, g = .reduce f z
  | .join ws => W.done ∈ ws
  | _ => False

/-- Nobody closes a channel for reading; late stages have found their input closed. (Concerns co_pipeline.h:140-435.) -/
structure NoCut (P : Pipe α) (s : State α) : Prop where
  ch : ∀ i, (s.ch i).st ≠ .cut
  pc : ∀ i, s.pc i ≠ .cut
  late : ∀ i g, P.stages[i]? = some g → Late g (s.pc i) → (s.ch i).st ≠ .opened

theorem late_pop {g : Stage α} (ht : g.takes = false) {w : Nat} {pc : Pc α} {h : Option α → Pc α} (hc : g.cmd w pc = .pop h) :
    (∀ v, Late g (h (some v)) → Late g pc) ∧ ∀ o, h o ≠ .cut := by
  cases pc with
  | get k buf =>
    cases g <;> simp only [Stage.cmd, reduceCtorEq] at hc <;> cases hc
    · exact ⟨fun v hl => by simp [Late] at hl, fun o => by cases o <;> simp⟩
    · refine ⟨fun v hl => ?_, fun o => ?_⟩
      · simp only at hl; split at hl <;> simp [Late] at hl
      · cases o <;> simp only <;> first | (split <;> simp) | simp
    · simp [Stage.takes] at ht
    · refine ⟨fun v hl => ?_, fun o => ?_⟩
      · simp only at hl; split at hl <;> simp [Late] at hl
      · cases o <;> simp only <;> split <;> simp
    · refine ⟨fun v hl => ?_, fun o => ?_⟩
      · simp only at hl; split at hl <;> simp [Late] at hl
      · cases o <;> simp only <;> first | (split <;> simp) | simp
  | fold a =>
    cases g <;> simp only [Stage.cmd, reduceCtorEq] at hc <;> cases hc
    exact ⟨fun v hl => by simp [Late] at hl, fun o => by cases o <;> simp⟩
  | join ws =>
    cases g <;> simp only [Stage.cmd, reduceCtorEq] at hc
    split at hc <;> try (cases hc; done)
    · cases hc
      refine ⟨fun v hl => ?_, fun o => by cases o <;> simp⟩
      simp only [Late] at hl ⊢
      rcases List.mem_or_eq_of_mem_set hl with h | h
      · exact h
      · cases h
    · split at hc <;> cases hc
  | put k v => cases g <;> simp [Stage.cmd] at hc
  | close => cases g <;> simp [Stage.cmd] at hc
  | cut => simp [Stage.cmd] at hc
  | done => simp [Stage.cmd] at hc

theorem late_push {g : Stage α} (ht : g.takes = false) {w : Nat} {pc : Pc α} {v : α} {h : Bool → Pc α} (hc : g.cmd w pc = .push v h) :
    (Late g (h true) → Late g pc) ∧ h true ≠ .cut ∧ pc ≠ .done ∧ pc ≠ .cut := by
  cases pc with
  | put k u =>
    cases g <;> simp only [Stage.cmd] at hc <;> cases hc
    case put.take.refl => simp [Stage.takes] at ht
    case put.group.refl n f =>
      by_cases hn : n = 0 <;> simp [Late, hn]
    all_goals simp [Late]
  | join ws =>
    cases g <;> simp only [Stage.cmd, reduceCtorEq] at hc
    split at hc <;> try (cases hc; done)
    · cases hc
      refine ⟨fun hl => ?_, by simp, by simp, by simp⟩
      simp only [Late, ite_true] at hl ⊢
      rcases List.mem_or_eq_of_mem_set hl with h | h
      · exact h
      · cases h
    · split at hc <;> cases hc
  | get k buf => cases g <;> simp [Stage.cmd] at hc
  | fold a => cases g <;> simp [Stage.cmd] at hc
  | close => cases g <;> simp [Stage.cmd] at hc
  | cut => simp [Stage.cmd] at hc
  | done => simp [Stage.cmd] at hc

theorem late_close {g : Stage α} (ht : g.takes = false) {w : Nat} {pc h : Pc α} (hc : g.cmd w pc = .close h) : Late g pc ∧ h ≠ .cut := by
  cases pc with
  | close => cases g <;> simp only [Stage.cmd] at hc <;> cases hc <;> first | (simp [Stage.takes] at ht; done) | simp [Late]
  | join ws =>
    cases g <;> simp only [Stage.cmd, reduceCtorEq] at hc
    split at hc <;> try (cases hc; done)
    split at hc <;> cases hc
  | get k buf => cases g <;> simp [Stage.cmd] at hc
  | put k v => cases g <;> simp [Stage.cmd] at hc
  | fold a => cases g <;> simp [Stage.cmd] at hc
  | cut => simp [Stage.cmd] at hc
  | done => simp [Stage.cmd] at hc

theorem late_cut {g : Stage α} {w : Nat} {pc h : Pc α} (hc : g.cmd w pc = .cut h) : pc = .cut := by
  cases pc with
  | cut => rfl
  | join ws =>
    cases g <;> simp only [Stage.cmd, reduceCtorEq] at hc
    split at hc <;> try (cases hc; done)
    split at hc <;> cases hc
  | get k buf => cases g <;> simp [Stage.cmd] at hc
  | put k v => cases g <;> simp [Stage.cmd] at hc
  | fold a => cases g <;> simp [Stage.cmd] at hc
  | close => cases g <;> simp [Stage.cmd] at hc
  | done => simp [Stage.cmd] at hc

theorem late_tau {g : Stage α} {w : Nat} {pc h : Pc α} {inp out : List α} {dr co : Prop} (hok : g.Ok) (hl : Local g pc inp dr co out)
    (hc : g.cmd w pc = .tau h) : Late g pc ∧ h ≠ .cut := by
  cases pc with
  | join ws =>
    cases g <;> simp only [Stage.cmd, reduceCtorEq] at hc
    split at hc <;> try (cases hc; done)
    split at hc
    · rename_i n f _ _ hall
      cases hc
      refine ⟨?_, by simp⟩
      obtain ⟨hlen, -⟩ := hl
      simp only [Stage.Ok] at hok
      cases ws with
      | nil => simp at hlen; omega
      | cons x xs =>
        cases x <;> simp at hall
        simp [Late]
    · cases hc
  | get k buf => cases g <;> simp [Stage.cmd] at hc
  | put k v => cases g <;> simp [Stage.cmd] at hc
  | fold a => cases g <;> simp [Stage.cmd] at hc
  | close => cases g <;> simp [Stage.cmd] at hc
  | cut => simp [Stage.cmd] at hc
  | done => simp [Stage.cmd] at hc

theorem nocut_init (P : Pipe α) (ht : ∀ g ∈ P.stages, g.takes = false) (hok : ∀ g ∈ P.stages, g.Ok) : NoCut P P.init := by
  refine ⟨by simp [Pipe.init], fun i => ?_, fun i g hg hl => ?_⟩
  · simp only [Pipe.init]
    split
    · rename_i g hg
      have := ht g (List.mem_of_getElem? hg)
      cases g <;> simp [Stage.start, Stage.takes] at this ⊢
      split <;> simp
    · simp
  · exfalso
    have h1 := ht g (List.mem_of_getElem? hg)
    have h2 := hok g (List.mem_of_getElem? hg)
    simp only [Pipe.init, hg] at hl
    cases g with
    | group n f => simp [Stage.start, Late, Nat.ne_of_gt (show 0 < n from h2)] at hl
    | fork n f =>
      simp only [Stage.start, Late, List.mem_replicate, reduceCtorEq, and_false] at hl
    | _ => simp [Stage.start, Stage.takes, Late] at h1 hl

theorem nocut_step {P : Pipe α} (ht : ∀ g ∈ P.stages, g.takes = false) (hok : ∀ g ∈ P.stages, g.Ok) {s s' : State α} {a : Act}
    {es : List (Ev α)} (hi : Inv P s) (h : NoCut P s) (hs : P.step s a = some (s', es)) : NoCut P s' := by
  cases a with
  | src =>
    simp only [Pipe.step] at hs
    split at hs
    · split at hs <;> cases hs <;> exact ⟨h.ch, h.pc, h.late⟩
    · split at hs
      · cases hs; exact ⟨h.ch, h.pc, h.late⟩
      · split at hs <;> cases hs
        refine ⟨fun i => ?_, h.pc, fun i g hg hl => ?_⟩
        · have := h.ch i
          by_cases hi : i = 0 <;> simp_all [upd, Chan.push]
        · have := h.late i g hg hl
          by_cases hi : i = 0 <;> simp_all [upd]
    · split at hs <;> cases hs; exact ⟨h.ch, h.pc, h.late⟩
    · cases hs
      refine ⟨fun i => ?_, h.pc, fun i g hg hl => ?_⟩
      · have := h.ch i
        by_cases hi : i = 0
        · subst hi
          simp only [upd_same, Chan.close]
          split <;> simp_all
        · simp_all [upd]
      · have := h.late i g hg hl
        by_cases hi : i = 0
        · subst hi
          simp only [upd_same, Chan.close]
          split <;> simp_all
        · simp_all [upd]
    · cases hs
  | run i w =>
    simp only [Pipe.step] at hs
    split at hs
    · cases hs
    · rename_i g hg
      have hgt := ht g (List.mem_of_getElem? hg)
      have hgo := hok g (List.mem_of_getElem? hg)
      split at hs
      · rename_i hh hc
        obtain ⟨l1, l2⟩ := late_pop hgt hc
        split at hs
        · cases hs
        · rename_i o c hp
          cases hs
          obtain ⟨-, hst, hq⟩ := pop_all hp
          refine ⟨fun j => ?_, fun j => ?_, fun j g' hg' hl => ?_⟩
          · have := h.ch j
            by_cases e : j = i <;> simp_all [upd]
          · by_cases e : j = i
            · subst e; simp only [upd_same]; exact l2 o
            · simp only [upd_other _ _ e]; exact h.pc j
          · by_cases e : j = i
            · subst e
              rw [hg] at hg'; cases hg'
              simp only [upd_same] at hl ⊢
              rw [hst]
              cases o with
              | some v => exact h.late j g hg (l1 v hl)
              | none =>
                simp only [Chan.pop] at hp
                split at hp
                · cases hp
                · split at hp
                  · cases hp
                  · assumption
            · simp only [upd_other _ _ e] at hl ⊢; exact h.late j g' hg' hl
      · rename_i v hh hc
        obtain ⟨l1, l2, l3, l4⟩ := late_push hgt hc
        have hop : (s.ch (i + 1)).st = .opened := by
          have a1 := hi.fin i
          have a2 := h.ch (i + 1)
          cases hx : (s.ch (i + 1)).st
          · rfl
          · exact absurd (a1 hx) (by simp [l3, l4])
          · exact absurd hx a2
        simp only [hop, ne_eq, not_true, if_false] at hs
        cases hs
        refine ⟨fun j => ?_, fun j => ?_, fun j g' hg' hl => ?_⟩
        · have := h.ch j
          by_cases e : j = i + 1 <;> simp_all [upd, Chan.push]
        · by_cases e : j = i
          · subst e; simp only [upd_same]; exact l2
          · simp only [upd_other _ _ e]; exact h.pc j
        · have key : (s.ch j).st ≠ .opened := by
            by_cases e : j = i
            · subst e
              rw [hg] at hg'; cases hg'
              simp only [upd_same] at hl
              exact h.late j g hg (l1 hl)
            · simp only [upd_other _ _ e] at hl; exact h.late j g' hg' hl
          by_cases e : j = i + 1 <;> simp_all [upd]
      · rename_i q hc
        obtain ⟨l1, l2⟩ := late_close hgt hc
        cases hs
        refine ⟨fun j => ?_, fun j => ?_, fun j g' hg' hl => ?_⟩
        · have := h.ch j
          by_cases e : j = i + 1
          · subst e
            simp only [upd_same, Chan.close]
            split <;> simp_all
          · simp_all [upd]
        · by_cases e : j = i
          · subst e; simp only [upd_same]; exact l2
          · simp only [upd_other _ _ e]; exact h.pc j
        · have key : (s.ch j).st ≠ .opened := by
            by_cases e : j = i
            · subst e
              exact h.late j g hg l1
            · simp only [upd_other _ _ e] at hl; exact h.late j g' hg' hl
          by_cases e : j = i + 1
          · subst e
            simp only [upd_same, Chan.close]
            split <;> simp_all
          · simp_all [upd]
      · rename_i q hc
        exact absurd (late_cut hc) (h.pc i)
      · rename_i q hc
        obtain ⟨l1, l2⟩ := late_tau hgo (hi.loc i g hg) hc
        cases hs
        refine ⟨h.ch, fun j => ?_, fun j g' hg' hl => ?_⟩
        · by_cases e : j = i
          · subst e; simp only [upd_same]; exact l2
          · simp only [upd_other _ _ e]; exact h.pc j
        · by_cases e : j = i
          · subst e
            exact h.late j g hg l1
          · simp only [upd_other _ _ e] at hl; exact h.late j g' hg' hl
      · cases hs
  | pop =>
    simp only [Pipe.step] at hs
    split at hs
    · cases hs
    · split at hs <;> cases hs
      all_goals
        rename_i hp
        obtain ⟨-, hst, -⟩ := pop_all hp
        refine ⟨fun j => ?_, h.pc, fun j g' hg' hl => ?_⟩
        · have := h.ch j
          by_cases e : j = P.stages.length <;> simp_all [upd]
        · have := h.late j g' hg' hl
          by_cases e : j = P.stages.length <;> simp_all [upd]

/-- Without `take`: when the consumer has found the end, every channel is closed and the source has finished. -/
theorem eof_done {P : Pipe α} {s : State α} (hi : Inv P s) (h : NoCut P s) (he : s.eof = true) : s.spc = .done := by
  have key : ∀ d, d ≤ P.stages.length → (s.ch (P.stages.length - d)).st = .fin := by
    intro d
    induction d with
    | zero => intro _; exact (hi.eof he).1
    | succ d ih =>
      intro hd
      have h1 := ih (by omega)
      obtain ⟨j, hj⟩ : ∃ j, P.stages.length - d = j + 1 := ⟨P.stages.length - d - 1, by omega⟩
      have hj' : P.stages.length - (d + 1) = j := by omega
      rw [hj] at h1
      rw [hj']
      have hlt : j < P.stages.length := by omega
      have h2 := (hi.fin j h1).resolve_right (h.pc j)
      have h3 := h.late j P.stages[j] (List.getElem?_eq_getElem hlt) (by rw [h2]; trivial)
      have h4 := h.ch j
      cases hx : (s.ch j).st
      · exact absurd hx h3
      · rfl
      · exact absurd hx h4
  have := key P.stages.length (Nat.le_refl _)
  rw [Nat.sub_self] at this
  exact hi.srcFin this

/-! ## The data of the source -/

/-- Who owns what the source reads: its coroutine (`own`: a copied collection, co_pipeline.h:214-231, a function, 178-200, a range,
124-141), or the program (`lent`: iterators, 153-169, an array, 171-176, an `initializer_list`, 233-248). -/
inductive Src
  | own | lent
deriving DecidableEq, Repr

/-- When the program ends the life of what it has lent: at any time (a pipeline that is kept in a variable), or only after the
consumer has found the end of the pipeline (everything in one expression that ends with `to`, co_pipeline.h:202-212; or a loop over
`chan()` until it is closed, 340-345, within the life of the data). -/
inductive When
  | any | end_
deriving DecidableEq, Repr

/-- A pipeline, and whether the data of its source is alive. (co_pipeline.h:411-435.) -/
structure LState (α : Type) where
  p : State α
  alive : Bool

/-- A step of the pipeline, or the end of the data. (Concerns co_pipeline.h:140-435.) -/
inductive LAct
  | pipe (a : Act)
  | die
deriving DecidableEq, Repr

/-- An event of the pipeline, or the read of element `k` of data that is no more (undefined). (Concerns co_pipeline.h:140-435.) -/
inductive LEv (α : Type)
  | pipe (e : Ev α)
  | dead (k : Nat)
deriving DecidableEq, Repr

/-- Does this step of the source read an element that was lent: `*iter` (co_pipeline.h:161, 238)? (Simplification: the comparison of
iterators at the end, 159, reads nothing but the iterators, which are copies.) -/
def reads (P : Pipe α) (o : Src) (s : State α) : Bool :=
  o = .lent && (match s.spc with | .gen => (P.src s.k).isSome | _ => false)

/-- The pipeline of `Verif.Pipe.Pipe`, with the life of the source's data. (Concerns co_pipeline.h:140-435.) -/
def lstep (P : Pipe α) (o : Src) (w : When) (s : LState α) : LAct → Option (LState α × List (LEv α))
  | .pipe a =>
    match P.step s.p a with
    | none => none
    | some (p, es) =>
      some ({ s with p := p }, (if a = .src ∧ reads P o s.p ∧ s.alive = false then [.dead s.p.k] else []) ++ es.map .pipe)
  | .die => if s.alive = true ∧ (w = .end_ → s.p.eof = true) then some ({ s with alive := false }, []) else none

/-- At first the data is alive. (Concerns co_pipeline.h:140-435.) -/
def linit (P : Pipe α) : LState α := ⟨P.init, true⟩

/-- What holds in all executions. (Concerns co_pipeline.h:140-435.) -/
structure LInv (P : Pipe α) (w : When) (s : LState α) : Prop where
  inv : Inv P s.p
  nocut : NoCut P s.p
  eof : w = .end_ → s.alive = false → s.p.eof = true

theorem eof_stays {P : Pipe α} {s s' : State α} {a : Act} {es : List (Ev α)} (h : P.step s a = some (s', es)) (he : s.eof = true) :
    s'.eof = true := by
  cases a with
  | src => simp only [Pipe.step] at h; repeat' split at h
           all_goals first | (cases h; done) | (cases h; exact he)
  | run i w => simp only [Pipe.step] at h; repeat' split at h
               all_goals first | (cases h; done) | (cases h; exact he)
  | pop => simp [Pipe.step, he] at h

theorem linv_runs {P : Pipe α} {o : Src} {w : When} (ht : ∀ g ∈ P.stages, g.takes = false) (hok : ∀ g ∈ P.stages, g.Ok)
    {as : List LAct} {s s' : LState α} {tr : List (LEv α)} (h : runs (lstep P o w) s as = some (s', tr)) (hi : LInv P w s)
    (hw : w = .end_) : LInv P w s' ∧ ∀ k, .dead k ∉ tr := by
  induction as generalizing s tr with
  | nil => cases h; exact ⟨hi, by simp⟩
  | cons a as ih =>
    obtain ⟨s1, e1, e2, h1, h2, rfl⟩ := runs_cons h
    have : LInv P w s1 ∧ ∀ k, .dead k ∉ e1 := by
      cases a with
      | pipe a =>
        simp only [lstep] at h1
        split at h1
        · cases h1
        · rename_i p es hp
          cases h1
          refine ⟨⟨inv_step hok hi.inv hp, nocut_step ht hok hi.inv hi.nocut hp, fun e1 e2 => eof_stays hp (hi.eof e1 e2)⟩, fun k hk => ?_⟩
          simp only [List.mem_append, List.mem_map, reduceCtorEq, and_false, exists_false, or_false] at hk
          split at hk
          · rename_i hc
            obtain ⟨rfl, hr, hd⟩ := hc
            have := eof_done hi.inv hi.nocut (hi.eof hw hd)
            simp [Pipe.step, this] at hp
          · cases hk
      | die =>
        simp only [lstep] at h1
        split at h1 <;> cases h1
        rename_i hc
        exact ⟨⟨hi.inv, hi.nocut, fun e _ => hc.2 e⟩, by simp⟩
    obtain ⟨h3, h4⟩ := ih h2 this.1
    refine ⟨h3, fun k hk => ?_⟩
    rcases List.mem_append.1 hk with hk | hk
    · exact this.2 k hk
    · exact h4 k hk

/-! ## C109 -/

/-- **C109 for sources that own their data**: a collection, a function or a range. Whatever the program destroys and when, whatever the
stages: the pipeline never reads data that is no more. -/
theorem C109_owned {P : Pipe α} {w : When} {as : List LAct} {s s' : LState α} {tr : List (LEv α)}
    (h : runs (lstep P .own w) s as = some (s', tr)) : ∀ k, .dead k ∉ tr := by
  induction as generalizing s tr with
  | nil => cases h; simp
  | cons a as ih =>
    obtain ⟨s1, e1, e2, h1, h2, rfl⟩ := runs_cons h
    intro k hk
    rcases List.mem_append.1 hk with hk | hk
    · cases a with
      | pipe a =>
        simp only [lstep] at h1
        split at h1
        · cases h1
        · cases h1; simp [reads] at hk
      | die =>
        simp only [lstep] at h1
        split at h1 <;> cases h1
        simp at hk
    · exact ih h2 k hk

/-- **C109 for lent data, partial**: iterators, arrays, `initializer_list`s. If the data lives until the consumer has found the end of the
pipeline, as in an expression that ends with `to`, and no stage is `take`: the pipeline never reads data that is no more.
Not true with `take` (`C109_take_reads_dead`) and of pipelines that outlive the data (`C109_kept_reads_dead`). -/
theorem C109_lent_partial {P : Pipe α} (ht : ∀ g ∈ P.stages, g.takes = false) (hok : ∀ g ∈ P.stages, g.Ok) {o : Src}
    {as : List LAct} {s : LState α} {tr : List (LEv α)} (h : runs (lstep P o .end_) (linit P) as = some (s, tr)) :
    ∀ k, .dead k ∉ tr :=
  (linv_runs ht hok h ⟨inv_init P, nocut_init P ht hok, fun _ => by simp [linit]⟩ rfl).2

/-- The same, said of the source: when `to` has returned, the source has finished, so nothing of the pipeline is left. -/
theorem C109_source_first {P : Pipe α} (ht : ∀ g ∈ P.stages, g.takes = false) (hok : ∀ g ∈ P.stages, g.Ok)
    {as : List Act} {s : State α} {tr : List (Ev α)} (h : runs P.step P.init as = some (s, tr)) (he : s.eof = true) : s.spc = .done := by
  have : Inv P s ∧ NoCut P s :=
    runs_inv (fun s => Inv P s ∧ NoCut P s)
      (fun s a s' es hx hs => ⟨inv_step hok hx.1 hs, nocut_step ht hok hx.1 hx.2 hs⟩) as _ _ _ ⟨inv_init P, nocut_init P ht hok⟩ h
  exact eof_done this.1 this.2 he

/-- **Not C109 with `take`**: `arr | take(1) | to<…>()` for any array with two or more elements. The consumer gets the first element and the
end, the expression is over, the array dies; then the source, which has not yet seen that its channel is closed, reads the second
element. -/
theorem C109_take_reads_dead (a b : α) (l : List α) :
    ∃ as s, runs (lstep (Pipe.ofList (a :: b :: l) .unlimited [.take 1]) .lent .end_)
        (linit (Pipe.ofList (a :: b :: l) .unlimited [.take 1])) as
      = some (s, [.pipe (.acc 0 a), .pipe (.acc 1 a), .pipe (.cls 1), .pipe (.cut 0), .pipe (.out a), .pipe .eof, .dead 1]) :=
  ⟨[.pipe .src, .pipe .src, .pipe (.run 0 0), .pipe (.run 0 0), .pipe (.run 0 0), .pipe (.run 0 0), .pipe .pop, .pipe .pop, .die, .pipe .src],
    _, rfl⟩

/-- **Not C109 of pipelines that are kept**: `co_pipeline<int> p({a, …}); … p | …` with any stages. The elements of the list die at the end of
the declaration; the source reads them when its coroutine first runs. -/
theorem C109_kept_reads_dead (a : α) (l : List α) (kd : Kind) (gs : List (Stage α)) :
    ∃ as s, runs (lstep (Pipe.ofList (a :: l) kd gs) .lent .any) (linit (Pipe.ofList (a :: l) kd gs)) as = some (s, [.dead 0]) :=
  ⟨[.die, .pipe .src], _, rfl⟩

/-- Events of an execution. (Concerns co_pipeline.h:140-435.) -/
def levents (P : Pipe α) (o : Src) (w : When) (as : List LAct) : Option (List (LEv α)) := (runs (lstep P o w) (linit P) as).map (·.2)

/-- C109: an array in one expression with `map` and `to`; the array dies when the consumer has the end. -/
example : levents (Pipe.ofList [1, 2] .unlimited [.map (· + 1)]) .lent .end_
    [.pipe .src, .pipe .src, .pipe .src, .pipe .src, .pipe .src, .pipe .src, .pipe (.run 0 0), .pipe (.run 0 0), .pipe (.run 0 0),
      .pipe (.run 0 0), .pipe (.run 0 0), .pipe (.run 0 0), .pipe .pop, .pipe .pop, .pipe .pop, .die]
    = some [.pipe (.acc 0 1), .pipe (.acc 0 2), .pipe (.cls 0), .pipe (.acc 1 2), .pipe (.acc 1 3), .pipe (.cls 1), .pipe (.out 2),
      .pipe (.out 3), .pipe .eof] := by decide

/-- The array cannot die earlier in that expression. -/
example : levents (Pipe.ofList [1, 2] .unlimited [.map (· + 1)]) .lent .end_ [.pipe .src, .die] = none := by decide

/-- A collection that is copied may die before the source runs. -/
example : levents (Pipe.ofList [7] .unlimited []) .own .any [.die, .pipe .src, .pipe .src, .pipe .pop]
    = some [.pipe (.acc 0 7), .pipe (.out 7)] := by decide

end Verif.Pipe
