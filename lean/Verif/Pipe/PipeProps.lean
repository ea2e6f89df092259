import Verif.Pipe.PipeInv

/-! # What pipelines deliver (C40, C41) -/

namespace Verif.Pipe
open Verif

variable {α : Type}

theorem pre_prefix {src : Nat → Option α} {X Y : List α} (hX : Pre src X) (hY : Pre src Y) (h : X.length ≤ Y.length) :
    X <+: Y := by
  rw [List.prefix_iff_eq_take]
  apply List.ext_getElem?
  intro j
  by_cases hj : j < X.length
  · rw [List.getElem?_take_of_lt hj, ← hX j hj, ← hY j (by omega)]
  · rw [List.getElem?_eq_none (by omega), List.getElem?_eq_none (by simp; omega)]

/-- Channel `i` holds a part of what the stages before it should compute, all of it if they closed it. -/
theorem approx {P : Pipe α} {s : State α} (hok : ∀ g ∈ P.stages, g.Ok) (h : Inv P s) {X : List α} (hX : Pre P.src X)
    (hk : s.k ≤ X.length) : ∀ i, i ≤ P.stages.length →
    ∃ Y, Dens (P.stages.take i) X Y ∧ (s.ch i).all <+: Y ∧ ((s.ch i).st = .fin → (s.ch i).all = Y)
  | 0, _ => by
    refine ⟨X, by simp [Dens], ?_, ?_⟩
    · have := h.src
      cases hp : s.spc <;> rw [hp] at this <;> simp only [SrcInv] at this
      · exact pre_prefix this.2 hX (by omega)
      · exact pre_prefix (pre_left this.2) hX (by omega)
      · exact pre_prefix this.2 hX (by omega)
      · exact pre_prefix this.2.1 hX (by omega)
      · exact pre_prefix this.2.1 hX (by omega)
    · intro hf
      have := h.src
      rw [h.srcFin hf, hf] at this
      obtain ⟨h1, h2, h3⟩ := this
      rcases h3 with h3 | ⟨h3, h4⟩
      · simp at h3
      · have hle : X.length = s.k := by
          by_cases e : s.k < X.length
          · have := hX s.k e; rw [h4, List.getElem?_eq_getElem e] at this; simp at this
          · omega
        have := pre_prefix h2 hX (by omega)
        exact this.eq_of_length (by omega)
  | i + 1, hi => by
    obtain ⟨Y, h1, h2, h3⟩ := approx hok h hX hk i (by omega)
    have hg : P.stages[i]? = some P.stages[i] := List.getElem?_eq_getElem (by omega)
    have hl := h.loc i _ hg
    have hgok := hok _ (List.mem_of_getElem? hg)
    have hgot : (s.ch i).got <+: Y := (List.prefix_append _ _).trans h2
    have hdr : (s.ch i).st = .fin ∧ (s.ch i).data = [] → Y = (s.ch i).got := by
      rintro ⟨e1, e2⟩; rw [← h3 e1]; simp [Chan.all, e2]
    have htake : P.stages.take (i + 1) = P.stages.take i ++ [P.stages[i]] := by
      rw [List.take_add_one, hg]; rfl
    by_cases hf : (s.ch (i + 1)).st = .fin
    · have he : End P.stages[i] (s.ch i).got ((s.ch i).st = .fin ∧ (s.ch i).data = []) ((s.ch (i + 1)).st = .cut)
          (s.ch (i + 1)).all := by
        rcases h.fin i hf with e | e <;> rw [e] at hl <;> exact hl
      obtain ⟨Y', k1, k2, k3⟩ := he Y hgot hdr
      refine ⟨Y', ?_, k2, fun _ => (k3 (by simp [hf])).symm⟩
      rw [htake, dens_snoc]; exact ⟨Y, h1, k1⟩
    · obtain ⟨Y', k1, k2⟩ := Local.part hgok hl hgot hdr
      refine ⟨Y', ?_, k2, fun e => absurd e hf⟩
      rw [htake, dens_snoc]; exact ⟨Y, h1, k1⟩

/-- The values the consumer got. (Concerns co_chan.h:22-278, co_pipeline.h:140-291.) -/
def outs : List (Ev α) → List α
  | [] => []
  | .out v :: es => v :: outs es
  | _ :: es => outs es

/-- The values that entered channel `i`. (Concerns co_chan.h:22-278, co_pipeline.h:140-291.) -/
def accs (i : Nat) : List (Ev α) → List α
  | [] => []
  | .acc j v :: es => if j = i then v :: accs i es else accs i es
  | _ :: es => accs i es

theorem outs_append (a b : List (Ev α)) : outs (a ++ b) = outs a ++ outs b := by
  induction a with
  | nil => rfl
  | cons e a ih => cases e <;> simp [outs, ih]

theorem accs_append (i : Nat) (a b : List (Ev α)) : accs i (a ++ b) = accs i a ++ accs i b := by
  induction a with
  | nil => rfl
  | cons e a ih => cases e <;> simp [accs, ih]; split <;> simp

/-- What the trace says about the last channel. (Concerns co_chan.h:22-278, co_pipeline.h:140-291.) -/
structure Hist (P : Pipe α) (s : State α) (tr : List (Ev α)) : Prop where
  outs : outs tr = (s.ch P.stages.length).got
  accs : accs P.stages.length tr = (s.ch P.stages.length).all
  eof : Ev.eof ∈ tr ↔ s.eof = true
  cls : Ev.cls P.stages.length ∈ tr → (s.ch P.stages.length).st ≠ .opened

theorem pop_all {c c' : Chan α} {o : Option α} (h : c.pop = some (o, c')) : c'.all = c.all ∧ c'.st = c.st ∧
    c'.got = c.got ++ o.toList := by
  obtain ⟨h1, h2, h3⟩ := pop_spec h
  refine ⟨h2, h1, ?_⟩
  rcases h3 with ⟨v, rfl, h, _⟩ | ⟨rfl, rfl, _⟩
  · simpa using h
  · simp

theorem hist_step {P : Pipe α} {s s' : State α} {a : Act} {es tr : List (Ev α)} (h : Hist P s tr)
    (hs : P.step s a = some (s', es)) : Hist P s' (tr ++ es) := by
  obtain ⟨h1, h2, h3, h4⟩ := h
  generalize hL : P.stages.length = L at h1 h2 h4
  have key : outs es = (s'.ch L).got.drop (s.ch L).got.length ∧ (s.ch L).got <+: (s'.ch L).got ∧
      (s'.ch L).all = (s.ch L).all ++ accs L es ∧ (s'.eof = true ↔ s.eof = true ∨ Ev.eof ∈ es) ∧
      (Ev.cls L ∈ es → (s'.ch L).st ≠ .opened) ∧ ((s.ch L).st ≠ .opened → (s'.ch L).st ≠ .opened) := by
    cases a with
    | src =>
      simp only [Pipe.step] at hs
      repeat' split at hs
      all_goals simp only [Option.some.injEq, Prod.mk.injEq, reduceCtorEq] at hs
      all_goals obtain ⟨rfl, rfl⟩ := hs
      · simp [outs, accs]
      · simp [outs, accs]
      · simp [outs, accs]
      · by_cases e : L = 0
        · subst e; simp_all [outs, accs, upd, Chan.push, Chan.all]
        · simp [outs, accs, upd, e, Ne.symm e]
      · by_cases e : L = 0
        · subst e; simp_all [outs, accs, upd, Chan.push, Chan.all]
        · simp [outs, accs, upd, e, Ne.symm e]
      · simp [outs, accs]
      · by_cases e : L = 0
        · subst e; simp [outs, accs, upd, Chan.close, Chan.all]; split <;> simp_all
        · simp [outs, accs, upd, e]
    | pop =>
      simp only [Pipe.step] at hs
      rw [hL] at hs
      split at hs
      · simp at hs
      · split at hs
        · simp at hs
        · rename_i c hp
          obtain ⟨q1, q2, q3⟩ := pop_all hp
          simp only [Option.some.injEq, Prod.mk.injEq] at hs
          obtain ⟨rfl, rfl⟩ := hs
          simp [outs, accs, upd, q1, q2, q3]
        · rename_i c hp
          obtain ⟨q1, q2, q3⟩ := pop_all hp
          simp only [Option.some.injEq, Prod.mk.injEq] at hs
          obtain ⟨rfl, rfl⟩ := hs
          simp [outs, accs, upd, q1, q2, q3]
    | run i w =>
      simp only [Pipe.step] at hs
      cases hg : P.stages[i]? with
      | none => simp [hg] at hs
      | some g =>
        have hi : i < L := by rw [← hL]; rw [List.getElem?_eq_some_iff] at hg; exact hg.1
        have hne : L ≠ i := by omega
        rw [hg] at hs
        dsimp only at hs
        cases hc : g.cmd w (s.pc i) with
        | stop => simp [hc] at hs
        | pop k =>
          rw [hc] at hs
          cases hp : (s.ch i).pop with
          | none => simp [hp] at hs
          | some r =>
            simp only [hp, Option.some.injEq, Prod.mk.injEq] at hs
            obtain ⟨rfl, rfl⟩ := hs
            simp [outs, accs, upd, hne]
        | push v k =>
          rw [hc] at hs
          dsimp only at hs
          split at hs <;> simp only [Option.some.injEq, Prod.mk.injEq] at hs <;> obtain ⟨rfl, rfl⟩ := hs
          · simp [outs, accs]
          · by_cases e : L = i + 1
            · subst e; simp_all [outs, accs, upd, Chan.push, Chan.all]
            · simp [outs, accs, upd, e, Ne.symm e]
        | close q =>
          simp only [hc, Option.some.injEq, Prod.mk.injEq] at hs
          obtain ⟨rfl, rfl⟩ := hs
          by_cases e : L = i + 1
          · subst e; simp [outs, accs, upd, Chan.close, Chan.all]; split <;> simp_all
          · simp [outs, accs, upd, e]
        | cut q =>
          simp only [hc, Option.some.injEq, Prod.mk.injEq] at hs
          obtain ⟨rfl, rfl⟩ := hs
          simp [outs, accs, upd, hne]
        | tau q =>
          simp only [hc, Option.some.injEq, Prod.mk.injEq] at hs
          obtain ⟨rfl, rfl⟩ := hs
          simp [outs, accs]
  obtain ⟨k1, ⟨z, hz⟩, k3, k4, k6, k7⟩ := key
  refine ⟨?_, ?_, ?_, ?_⟩
  · rw [hL, outs_append, h1, k1, ← hz]; simp
  · rw [hL, accs_append, h2, k3]
  · rw [k4, List.mem_append, h3]
  · intro hm
    rw [hL] at hm ⊢
    rcases List.mem_append.1 hm with hm | hm
    · exact k7 (h4 hm)
    · exact k6 hm

theorem hist_runs {P : Pipe α} {as : List Act} {s : State α} {tr : List (Ev α)} (h : runs P.step P.init as = some (s, tr)) :
    Hist P s tr := by
  have := runs_hist (Hist P) (fun s a s' es tr h hs => hist_step h hs) as P.init s tr []
    ⟨by simp [Pipe.init, Pipe.outs], by simp [Pipe.init, Pipe.accs, Chan.all], by simp [Pipe.init], by simp⟩ h
  simpa using this

/-- A pipeline whose source is a list (co_pipeline.h:152-166, 214-248; or a function that returns these items, 178-199). -/
def Pipe.ofList (l : List α) (kd : Kind) (gs : List (Stage α)) : Pipe α := ⟨fun k => l[k]?, kd, gs⟩

theorem k_le {l : List α} {kd : Kind} {gs : List (Stage α)} {as : List Act} {s : State α} {tr : List (Ev α)}
    (h : runs (Pipe.ofList l kd gs).step (Pipe.ofList l kd gs).init as = some (s, tr)) : s.k ≤ l.length := by
  refine runs_inv (fun s : State α => s.k ≤ l.length) ?_ as _ _ _ (by simp [Pipe.init]) h
  intro s a s' es hk hs
  cases a <;> simp only [Pipe.step] at hs <;> repeat' split at hs
  all_goals simp only [Option.some.injEq, Prod.mk.injEq, reduceCtorEq] at hs
  all_goals obtain ⟨rfl, rfl⟩ := hs
  all_goals first | exact hk | skip
  rename_i hv
  simp only [Pipe.ofList, List.getElem?_eq_some_iff] at hv
  exact hv.1

/-- The list function of a stage. (`fork` is not one: its order is open.) (Concerns co_chan.h:22-278, co_pipeline.h:140-291.) -/
def Stage.fn : Stage α → List α → List α
  | .map f, l => l.map f
  | .filter p, l => l.filter p
  | .take n, l => l.take n
  | .skip n, l => l.drop n
  | .reduce f z, l => [l.foldl f z]
  | .group n f, l => (List.range (l.length / n)).map fun i => f ((l.drop (i * n)).take n)
  | .fork _ f, l => l.map f

/-- Is it a `fork`? (Concerns co_chan.h:22-278, co_pipeline.h:140-291.) -/
def Stage.isFork : Stage α → Bool
  | .fork _ _ => true
  | _ => false

theorem dens_fn (gs : List (Stage α)) (hf : ∀ g ∈ gs, g.isFork = false) (X Y : List α) :
    Dens gs X Y ↔ Y = gs.foldl (fun l g => g.fn l) X := by
  induction gs generalizing X with
  | nil => simp [Dens]
  | cons g gs ih =>
    have hg := hf g (by simp)
    have hgs := ih (fun g h => hf g (by simp [h]))
    simp only [Dens, hgs, List.foldl_cons]
    have : ∀ Z, g.Den X Z ↔ Z = g.fn X := by
      intro Z; cases g <;> simp [Stage.Den, Stage.fn, Stage.isFork] at hg ⊢
    simp [this]

/-! ## C40 -/

/-- **C40 for any source and any stages, `fork` included**: whatever part `X` of its items the source has been asked for so far,
the consumer has got the beginning of a result for `X`, and all of it if it got the end. -/
theorem C40_any_source {P : Pipe α} (hok : ∀ g ∈ P.stages, g.Ok) {as : List Act} {s : State α} {tr : List (Ev α)}
    (h : runs P.step P.init as = some (s, tr)) {X : List α} (hX : ∀ j < X.length, P.src j = X[j]?) (hk : s.k ≤ X.length) :
    ∃ Y, Dens P.stages X Y ∧ outs tr <+: Y ∧ (Ev.eof ∈ tr → outs tr = Y) := by
  have hI := inv_runs hok h
  have hH := hist_runs h
  obtain ⟨Y, h1, h2, h3⟩ := approx hok hI hX hk P.stages.length (Nat.le_refl _)
  rw [List.take_length] at h1
  refine ⟨Y, h1, ?_, ?_⟩
  · rw [hH.outs]; exact (List.prefix_append _ _).trans h2
  · intro he
    obtain ⟨e1, e2⟩ := hI.eof (hH.eof.1 he)
    rw [hH.outs, ← h3 e1]; simp [Chan.all, e2]

/-- **C40**: for every list, every kind of source channel, all stages and every schedule, the consumer gets a beginning of the
value of the list functions, and exactly their value if it gets the end. -/
theorem C40_delivers {l : List α} {kd : Kind} {gs : List (Stage α)} (hf : ∀ g ∈ gs, g.isFork = false)
    (hg : ∀ n f, Stage.group n f ∈ gs → 0 < n) {as : List Act} {s : State α} {tr : List (Ev α)}
    (h : runs (Pipe.ofList l kd gs).step (Pipe.ofList l kd gs).init as = some (s, tr)) :
    outs tr <+: gs.foldl (fun l g => g.fn l) l ∧ (Ev.eof ∈ tr → outs tr = gs.foldl (fun l g => g.fn l) l) := by
  have hok : ∀ g ∈ (Pipe.ofList l kd gs).stages, g.Ok := by
    intro g hm
    cases g with
    | group n f => exact hg n f hm
    | fork n f => exact absurd (hf _ hm) (by simp [Stage.isFork])
    | _ => trivial
  obtain ⟨Y, h1, h2, h3⟩ := C40_any_source hok h (X := l) (fun j _ => rfl) (k_le h)
  have h1 := (dens_fn gs hf l Y).1 h1
  subst h1
  exact ⟨h2, h3⟩

/-- In a closed last channel nothing changes any more. -/
theorem closed_final {P : Pipe α} {s s' : State α} {as : List Act} {tr : List (Ev α)} (h : runs P.step s as = some (s', tr))
    (hc : (s.ch P.stages.length).st ≠ .opened) : accs P.stages.length tr = [] := by
  induction as generalizing s tr with
  | nil =>
    simp only [runs, Option.some.injEq, Prod.mk.injEq] at h
    obtain ⟨_, rfl⟩ := h; rfl
  | cons a as ih =>
    obtain ⟨u, e1, e2, k1, k2, rfl⟩ := runs_cons h
    have key : accs P.stages.length e1 = [] ∧ (u.ch P.stages.length).st ≠ .opened := by
      generalize hL : P.stages.length = L at hc
      cases a with
      | src =>
        simp only [Pipe.step] at k1
        repeat' split at k1
        all_goals simp only [Option.some.injEq, Prod.mk.injEq, reduceCtorEq] at k1
        all_goals obtain ⟨rfl, rfl⟩ := k1
        · simp [accs, hc]
        · simp [accs, hc]
        · simp [accs, hc]
        · by_cases e : L = 0
          · subst e; simp_all
          · simp [accs, upd, e, Ne.symm e, hc]
        · by_cases e : L = 0
          · subst e; simp_all
          · simp [accs, upd, e, Ne.symm e, hc]
        · simp [accs, hc]
        · by_cases e : L = 0
          · subst e; simp [accs, upd, Chan.close]; split <;> simp_all
          · simp [accs, upd, e, hc]
      | pop =>
        simp only [Pipe.step] at k1
        rw [hL] at k1
        split at k1
        · simp at k1
        · split at k1
          · simp at k1
          · rename_i c hp
            obtain ⟨q1, q2, q3⟩ := pop_all hp
            simp only [Option.some.injEq, Prod.mk.injEq] at k1
            obtain ⟨rfl, rfl⟩ := k1
            simp [accs, upd, q2, hc]
          · rename_i c hp
            obtain ⟨q1, q2, q3⟩ := pop_all hp
            simp only [Option.some.injEq, Prod.mk.injEq] at k1
            obtain ⟨rfl, rfl⟩ := k1
            simp [accs, upd, q2, hc]
      | run i w =>
        simp only [Pipe.step] at k1
        cases hg : P.stages[i]? with
        | none => simp [hg] at k1
        | some g =>
          have hi : i < L := by rw [← hL]; rw [List.getElem?_eq_some_iff] at hg; exact hg.1
          have hne : L ≠ i := by omega
          rw [hg] at k1
          dsimp only at k1
          cases hcm : g.cmd w (s.pc i) with
          | stop => simp [hcm] at k1
          | pop k =>
            rw [hcm] at k1
            cases hp : (s.ch i).pop with
            | none => simp [hp] at k1
            | some r =>
              simp only [hp, Option.some.injEq, Prod.mk.injEq] at k1
              obtain ⟨rfl, rfl⟩ := k1
              simp [accs, upd, hne, hc]
          | push v k =>
            rw [hcm] at k1
            dsimp only at k1
            split at k1 <;> simp only [Option.some.injEq, Prod.mk.injEq] at k1 <;> obtain ⟨rfl, rfl⟩ := k1
            · simp [accs, hc]
            · by_cases e : L = i + 1
              · subst e; simp_all
              · simp [accs, upd, e, Ne.symm e, hc]
          | close q =>
            simp only [hcm, Option.some.injEq, Prod.mk.injEq] at k1
            obtain ⟨rfl, rfl⟩ := k1
            by_cases e : L = i + 1
            · subst e; simp [accs, upd, Chan.close]; split <;> simp_all
            · simp [accs, upd, e, hc]
          | cut q =>
            simp only [hcm, Option.some.injEq, Prod.mk.injEq] at k1
            obtain ⟨rfl, rfl⟩ := k1
            simp [accs, upd, hne, hc]
          | tau q =>
            simp only [hcm, Option.some.injEq, Prod.mk.injEq] at k1
            obtain ⟨rfl, rfl⟩ := k1
            simp [accs, hc]
    rw [accs_append, key.1, ih k2 key.2]; rfl

/-- A step that closes the last channel only does that. -/
theorem cls_alone {P : Pipe α} {s s' : State α} {a : Act} {es : List (Ev α)} {i : Nat} (h : P.step s a = some (s', es))
    (hm : Ev.cls i ∈ es) : es = [Ev.cls i] := by
  cases a <;> simp only [Pipe.step] at h <;> repeat' split at h
  all_goals simp only [Option.some.injEq, Prod.mk.injEq, reduceCtorEq] at h
  all_goals obtain ⟨rfl, rfl⟩ := h
  all_goals simp at hm
  all_goals simp [hm]

/-- **C40, completely before closing, `fork` included**: when the last channel is closed, a complete result has entered it, and
nothing enters it afterwards. -/
theorem C40_complete_before_close_any {l : List α} {kd : Kind} {gs : List (Stage α)} (hok : ∀ g ∈ gs, g.Ok) {as : List Act}
    {s : State α} {pre post : List (Ev α)}
    (h : runs (Pipe.ofList l kd gs).step (Pipe.ofList l kd gs).init as = some (s, pre ++ Ev.cls gs.length :: post)) :
    Dens gs l (accs gs.length pre) ∧ accs gs.length post = [] := by
  obtain ⟨as1, a, as2, s1, s2, p1, p2, q1, q2, rfl, h1, h2, h3, rfl, rfl⟩ := runs_split as _ _ _ _ _ h
  have he := cls_alone h2 (i := gs.length) (by simp)
  have hp2 : p2 = [] ∧ q1 = [] := by
    have := congrArg List.length he
    simp at this
    constructor <;> apply List.eq_nil_of_length_eq_zero <;> omega
  obtain ⟨rfl, rfl⟩ := hp2
  have h12 : runs (Pipe.ofList l kd gs).step (Pipe.ofList l kd gs).init (as1 ++ [a]) = some (s2, p1 ++ [Ev.cls gs.length]) :=
    runs_append h1 (by have h2 : _ = some (s2, [Ev.cls gs.length]) := h2; simp [runs, h2])
  have hI := inv_runs (P := Pipe.ofList l kd gs) hok h12
  have hH := hist_runs h12
  have hst : (s2.ch gs.length).st ≠ .opened := hH.cls (by simp [Pipe.ofList])
  obtain ⟨Y, k1, k2, k3⟩ := approx (P := Pipe.ofList l kd gs) hok hI (X := l) (fun j _ => rfl) (k_le h12) gs.length (Nat.le_refl _)
  have hfin : (s2.ch gs.length).st = .fin := by
    cases hx : (s2.ch gs.length).st with
    | opened => exact absurd hx hst
    | fin => rfl
    | cut => have := (hI.cut _ hx).1; simp [Pipe.ofList] at this
  constructor
  · have : accs gs.length p1 = Y := by
      rw [← k3 hfin]
      have := hH.accs
      simpa [accs_append, accs, Pipe.ofList] using this
    rw [List.append_nil, this]
    simpa [Pipe.ofList] using k1
  · have := closed_final h3 hst
    simpa [Pipe.ofList] using this

/-- **C40, completely before closing**: when the last channel is closed, exactly the value of the list functions has entered it. -/
theorem C40_complete_before_close {l : List α} {kd : Kind} {gs : List (Stage α)} (hf : ∀ g ∈ gs, g.isFork = false)
    (hg : ∀ n f, Stage.group n f ∈ gs → 0 < n) {as : List Act} {s : State α} {pre post : List (Ev α)}
    (h : runs (Pipe.ofList l kd gs).step (Pipe.ofList l kd gs).init as = some (s, pre ++ Ev.cls gs.length :: post)) :
    accs gs.length pre = gs.foldl (fun l g => g.fn l) l ∧ accs gs.length post = [] := by
  have hok : ∀ g ∈ gs, g.Ok := by
    intro g hm
    cases g with
    | group n f => exact hg n f hm
    | fork n f => exact absurd (hf _ hm) (by simp [Stage.isFork])
    | _ => trivial
  obtain ⟨h1, h2⟩ := C40_complete_before_close_any hok h
  rw [dens_fn _ hf] at h1
  exact ⟨h1, h2⟩

/-! ## C41 -/

/-- **C41**: with at least one worker, the consumer of `source | fork(n, f)` gets `f` of different items of the source, in some
order, and of all of them if it gets the end. -/
theorem C41_each_item_once {l : List α} {kd : Kind} {n : Nat} {f : α → α} (hn : 0 < n) {as : List Act} {s : State α}
    {tr : List (Ev α)}
    (h : runs (Pipe.ofList l kd [.fork n f]).step (Pipe.ofList l kd [.fork n f]).init as = some (s, tr)) :
    (∃ rest, (outs tr ++ rest).Perm (l.map f)) ∧ (Ev.eof ∈ tr → (outs tr).Perm (l.map f)) := by
  obtain ⟨Y, h1, h2, h3⟩ := C40_any_source (P := Pipe.ofList l kd [.fork n f]) (by simp [Pipe.ofList, Stage.Ok, hn]) h (X := l)
    (fun j _ => rfl) (k_le h)
  have h1 : Y.Perm (l.map f) := by
    obtain ⟨Z, k1, k2⟩ := h1
    simp only [Dens] at k2; subst k2; exact k1
  refine ⟨?_, fun he => by rw [h3 he]; exact h1⟩
  obtain ⟨rest, rfl⟩ := h2
  exact ⟨rest, h1⟩

/-- **C41, closes only afterwards**: when the channel of the `fork` is closed, `f` of every item has entered it exactly once. -/
theorem C41_closes_afterwards {l : List α} {kd : Kind} {n : Nat} {f : α → α} (hn : 0 < n) {as : List Act} {s : State α}
    {pre post : List (Ev α)}
    (h : runs (Pipe.ofList l kd [.fork n f]).step (Pipe.ofList l kd [.fork n f]).init as =
      some (s, pre ++ Ev.cls 1 :: post)) : (accs 1 pre).Perm (l.map f) ∧ accs 1 post = [] := by
  obtain ⟨⟨Z, k1, k2⟩, h2⟩ := C40_complete_before_close_any (gs := [.fork n f]) (by simp [Stage.Ok, hn]) h
  simp only [Dens] at k2; subst k2
  exact ⟨k1, h2⟩

/-! ## Examples -/

/-- The events of a schedule. (Concerns co_chan.h:22-278, co_pipeline.h:140-291.) -/
def events (P : Pipe α) (as : List Act) : Option (List (Ev α)) := (runs P.step P.init as).map (·.2)

/-- `[1, 2, 3] | (+1) | take 2`: the source still pushes while the others run; its last push is refused. -/
example : events (Pipe.ofList [1, 2, 3] .unlimited [.map (· + 1), .take 2])
    [.src, .src, .run 0 0, .run 0 0, .src, .run 1 0, .run 1 0, .src, .run 0 0, .run 0 0, .pop, .run 1 0, .run 1 0, .src, .src,
      .run 1 0, .run 0 0, .run 0 0, .run 1 0, .pop, .pop] =
    some [.acc 0 1, .acc 1 2, .acc 2 2, .acc 0 2, .acc 1 3, .out 2, .acc 2 3, .acc 0 3, .cls 2, .acc 1 4, .cut 1, .out 3, .eof] := by
  decide

/-- `[1, 2, 3] | fork(2, +10)`: the results come in another order. -/
example : events (Pipe.ofList [1, 2, 3] .unlimited [.fork 2 (· + 10)])
    [.src, .src, .src, .src, .src, .src, .src, .src, .run 0 0, .run 0 1, .run 0 1, .run 0 0, .run 0 1, .run 0 0, .run 0 1, .run 0 1,
      .run 0 2, .run 0 2, .pop, .pop, .pop, .pop] =
    some [.acc 0 1, .acc 0 2, .acc 0 3, .cls 0, .acc 1 12, .acc 1 11, .acc 1 13, .cls 1, .out 12, .out 11, .out 13, .eof] := by
  decide

/-- The list functions of a longer pipeline: groups of two (the rest is dropped), without the first, summed up. -/
example : [Stage.group 2 List.sum, .skip 1, .filter (· % 3 = 1), .reduce (· + ·) 100].foldl (fun l g => g.fn l)
    [1, 2, 3, 4, 5, 6, 7, 8, 9] = [107] := by decide

end Verif.Pipe
