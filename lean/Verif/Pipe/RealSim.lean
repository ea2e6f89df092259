import Verif.Pipe.Real

/-! # Pipelines over the real channels: the simulation -/

namespace Verif.Real
open Monitor

variable {α : Type} {P : Pipe.Pipe α} {it : Bool} {s : Pipe.State α}

/-! ## Each operation of a coroutine is a step of `Pipe.step` -/

theorem hide_of_not {p : Pipe.Pc α} (h : ∀ ws, p ≠ .join ws) : hide p = p := by
  cases p <;> first | rfl | exact absurd rfl (h _)

theorem not_joining {p : Pipe.Pc α} (h : joining (hide p) = false) : ∀ ws, p ≠ .join ws := by
  rintro ws rfl; simp [hide, joining] at h

/-- What a coroutine that calls a channel is about to do. -/
theorem own_call {w : Who} {j : Nat} {k : Chan.Op α} {h : Chan.Res α → Loc α}
    (ho : own P it w (locs P s w) = .call j k h) :
    (w = .src ∧ j = 0 ∧ ((∃ v, s.spc = .put v ∧ k = .push v ∧ h = fun r => .src s.k (if accepted r then .gen else .close)) ∨
      (s.spc = .close ∧ k = .close ∧ h = fun _ => .src s.k .done))) ∨
    (∃ i g, w = .stage i ∧ P.stages[i]? = some g ∧ (∀ ws, s.pc i ≠ .join ws) ∧
      ((∃ h', g.cmd 0 (s.pc i) = .pop h' ∧ j = i ∧ (k = .pop ∨ k = .next) ∧ h = fun r => .stage (h' (answer r))) ∨
       (∃ v h', g.cmd 0 (s.pc i) = .push v h' ∧ j = i + 1 ∧ k = .push v ∧ h = fun r => .stage (h' (accepted r))) ∨
       (∃ h', g.cmd 0 (s.pc i) = .close h' ∧ j = i + 1 ∧ k = .close ∧ h = fun _ => .stage h') ∨
       (∃ h', g.cmd 0 (s.pc i) = .cut h' ∧ j = i ∧ k = .close ∧ h = fun _ => .stage h'))) ∨
    (∃ i u n f ws, w = .worker i u ∧ P.stages[i]? = some (.fork n f) ∧ u < n ∧ s.pc i = .join ws ∧
      ((ws[u]? = some .get ∧ j = i ∧ k = .pop ∧
          h = fun r => .worker (match answer r with | none => .done | some v => .put (f v))) ∨
       (∃ v, ws[u]? = some (.put v) ∧ j = i + 1 ∧ k = .push v ∧ h = fun r => .worker (if accepted r then .get else .done)))) ∨
    (w = .consumer ∧ s.eof = false ∧ j = P.stages.length ∧ (k = .pop ∨ k = .next) ∧
      h = fun r => match answer r with
        | some v => .consumer ((s.ch P.stages.length).got ++ [v]) false
        | none => .consumer (s.ch P.stages.length).got true) := by
  cases w with
  | src =>
    left
    refine ⟨rfl, ?_⟩
    simp only [locs, own] at ho
    cases hp : s.spc <;> simp only [hp] at ho
    case gen => split at ho <;> cases ho
    case put v => cases ho; exact ⟨rfl, .inl ⟨v, rfl, rfl, rfl⟩⟩
    case close => cases ho; exact ⟨rfl, .inr ⟨rfl, rfl, rfl⟩⟩
    all_goals cases ho
  | stage i =>
    right; left
    simp only [locs, own] at ho
    cases hg : P.stages[i]? with
    | none => simp [hg] at ho
    | some g =>
      simp only [hg] at ho
      by_cases hj : joining (hide (s.pc i)) = true
      · simp [hj] at ho
      · simp only [hj, Bool.false_eq_true, if_false] at ho
        have hn := not_joining (by simpa using hj)
        rw [hide_of_not hn] at ho
        refine ⟨i, g, rfl, hg, hn, ?_⟩
        cases hc : g.cmd 0 (s.pc i) <;> simp only [hc] at ho <;> cases ho
        · next h' =>
          refine .inl ⟨h', rfl, rfl, ?_, rfl⟩
          simp only [reads]
          split <;> simp
          omega
        · exact .inr (.inl ⟨_, _, rfl, rfl, rfl, rfl⟩)
        · exact .inr (.inr (.inl ⟨_, rfl, rfl, rfl, rfl⟩))
        · exact .inr (.inr (.inr ⟨_, rfl, rfl, rfl, rfl⟩))
  | worker i u =>
    right; right; left
    simp only [locs, own] at ho
    cases hg : P.stages[i]? with
    | none => simp [hg] at ho
    | some g =>
      cases g <;> simp only [hg] at ho <;> try cases ho
      rename_i n f
      by_cases hu : u < n
      · simp only [hu, if_true] at ho
        cases hp : s.pc i <;> simp only [hp] at ho <;> try cases ho
        rename_i ws
        refine ⟨i, u, n, f, ws, rfl, hg, hu, hp, ?_⟩
        have hget : ws.getD u .done = (ws[u]?).getD .done := by simp [List.getD]
        rw [hget] at ho
        cases hw : ws[u]? with
        | none => simp [hw] at ho
        | some x =>
          simp only [hw, Option.getD_some] at ho
          cases x <;> simp only at ho <;> cases ho
          · exact .inl ⟨rfl, rfl, rfl, rfl⟩
          · exact .inr ⟨_, rfl, rfl, rfl, rfl⟩
      · simp [hu] at ho
  | consumer =>
    right; right; right
    simp only [locs, own] at ho
    cases he : s.eof <;> simp only [he, if_true, Bool.false_eq_true, if_false] at ho <;> cases ho
    exact ⟨rfl, rfl, rfl, by cases it <;> simp, rfl⟩

/-- Proof device: frame conditions for stage steps. -/
theorem moves_stage {i : Nat} {q : Pipe.Pc α} {ch : Nat → Pipe.Chan α} (hn : ∀ ws, s.pc i ≠ .join ws) (hq : ∀ ws, q ≠ .join ws)
    (hgot : (ch P.stages.length).got = (s.ch P.stages.length).got) :
    Moves P s (.stage i) (.stage q) { s with pc := upd s.pc i q, ch := ch } := by
  refine ⟨by simp [locs, hide_of_not hq], ?_⟩
  intro u hu
  cases u with
  | src => rfl
  | stage k =>
    have : k ≠ i := by rintro rfl; exact hu rfl
    simp [locs, upd_other _ _ this]
  | worker k v =>
    by_cases hk : k = i
    · subst hk
      simp only [locs, upd_same]
    · simp [locs, upd_other _ _ hk]
  | consumer => simp [locs, hgot]

theorem moves_worker {i u : Nat} {ws : List (Pipe.W α)} {x : Pipe.W α} {ch : Nat → Pipe.Chan α} (hp : s.pc i = .join ws)
    (hu : u < ws.length) (hgot : (ch P.stages.length).got = (s.ch P.stages.length).got) :
    Moves P s (.worker i u) (.worker x) { s with pc := upd s.pc i (.join (ws.set u x)), ch := ch } := by
  refine ⟨by simp [locs, List.getD, hu], ?_⟩
  intro v hv
  cases v with
  | src => rfl
  | stage k =>
    by_cases hk : k = i
    · subst hk; simp [locs, hp, hide]
    · simp [locs, upd_other _ _ hk]
  | worker k v =>
    by_cases hk : k = i
    · subst hk
      have : u ≠ v := by rintro rfl; exact hv rfl
      simp [locs, hp, List.getD, List.getElem?_set_ne this]
    · simp [locs, upd_other _ _ hk]
  | consumer => simp [locs, hgot]

theorem moves_src {k : Nat} {p : Pipe.Spc α} {ch : Nat → Pipe.Chan α}
    (hgot : (ch P.stages.length).got = (s.ch P.stages.length).got) :
    Moves P s .src (.src k p) { s with k := k, spc := p, ch := ch } := by
  refine ⟨rfl, ?_⟩
  intro u hu
  cases u with
  | src => exact absurd rfl hu
  | consumer => simp [locs, hgot]
  | _ => rfl

theorem got_upd {ch : Nat → Pipe.Chan α} {j n : Nat} {c : Pipe.Chan α} (h : j = n → c.got = (ch j).got) :
    (upd ch j c n).got = (ch n).got := by
  by_cases hj : n = j
  · subst hj; simpa using h rfl
  · rw [upd_other _ _ hj]

theorem upd_id (ch : Nat → Pipe.Chan α) (j : Nat) : upd ch j (ch j) = ch := by
  funext i; by_cases h : i = j <;> simp [h]

/-- A push that is accepted. -/
theorem do_push {w : Who} {j : Nat} {v : α} {h : Chan.Res α → Loc α} (hF : Frk P s)
    (ho : own P it w (locs P s w) = .call j (.push v) h) (hopen : (s.ch j).st = .opened)
    (hroom : j = 0 → P.kind.room (s.ch 0).data.length = true) :
    ∃ a s' es, P.step s a = some (s', es) ∧ s'.ch = upd s.ch j ((s.ch j).push v) ∧
      Moves P s w (if w = .src ∧ P.kind = .sync then .src s.k .wait else h (.pushed true)) s' := by
  rcases own_call ho with ⟨rfl, rfl, h1 | h1⟩ | ⟨i, g, rfl, hg, hn, h1⟩ | ⟨i, u, n, f, ws, rfl, hg, hu, hp, h1⟩ | ⟨rfl, _, _, h1, _⟩
  · obtain ⟨x, h2, h3, rfl⟩ := h1
    cases h3
    refine ⟨.src, { s with spc := if P.kind = .sync then .wait else .gen, ch := upd s.ch 0 ((s.ch 0).push v) }, [.acc 0 v], ?_, rfl, ?_⟩
    · simp only [Pipe.Pipe.step, h2, hopen, ne_eq, not_true_eq_false, if_false, hroom rfl, if_true]
    · have := @moves_src α P s s.k (if P.kind = .sync then .wait else .gen) (upd s.ch 0 ((s.ch 0).push v))
        (got_upd (by intro _; rfl))
      by_cases hk : P.kind = .sync
      · simp only [hk, and_self, if_true] at this ⊢; exact this
      · simp only [hk, and_false, if_false, accepted, if_true] at this ⊢; exact this
  · cases h1.2.1
  · rcases h1 with ⟨h', _, _, h2, _⟩ | ⟨x, h', h2, rfl, h3, rfl⟩ | ⟨h', _, _, h2, _⟩ | ⟨h', _, _, h2, _⟩
    · simp at h2
    · cases h3
      refine ⟨.run i 0, _, _, by simp only [Pipe.Pipe.step, hg, h2, hopen, ne_eq, not_true_eq_false, if_false]; rfl, rfl, ?_⟩
      simp only [reduceCtorEq, false_and, if_false, accepted]
      refine moves_stage hn ?_ (got_upd (by intro _; rfl))
      intro ws hw
      obtain ⟨us, _, _, hus, _⟩ := (@cmd_join α g 0 (s.pc i)).2.1 v h' h2 _ ws hw
      exact hn us hus
    · cases h2
    · cases h2
  · obtain ⟨n', f', hg', hl⟩ := hF i ws hp
    rw [hg] at hg'; cases hg'
    rcases h1 with ⟨_, _, h2, _⟩ | ⟨x, h2, rfl, h3, rfl⟩
    · cases h2
    · cases h3
      refine ⟨.run i u, _, _, by
        simp only [Pipe.Pipe.step, hg, hp, Pipe.Stage.cmd, h2, hopen, ne_eq, not_true_eq_false, if_false]; rfl, rfl, ?_⟩
      simp only [reduceCtorEq, false_and, if_false, accepted]
      exact moves_worker hp (by omega) (got_upd (by intro _; rfl))
  · simp at h1

/-- A push that is refused. -/
theorem do_refuse {w : Who} {j : Nat} {v : α} {h : Chan.Res α → Loc α} (hF : Frk P s)
    (ho : own P it w (locs P s w) = .call j (.push v) h) (hcl : (s.ch j).st ≠ .opened) :
    ∃ a s' es, P.step s a = some (s', es) ∧ s'.ch = s.ch ∧ Moves P s w (h (.pushed false)) s' := by
  rcases own_call ho with ⟨rfl, rfl, h1 | h1⟩ | ⟨i, g, rfl, hg, hn, h1⟩ | ⟨i, u, n, f, ws, rfl, hg, hu, hp, h1⟩ | ⟨rfl, _, _, h1, _⟩
  · obtain ⟨x, h2, h3, rfl⟩ := h1
    cases h3
    refine ⟨.src, { s with spc := .close }, [], ?_, rfl, ?_⟩
    · simp only [Pipe.Pipe.step, h2, if_pos hcl]
    · exact @moves_src α P s s.k .close s.ch rfl
  · cases h1.2.1
  · rcases h1 with ⟨h', _, _, h2, _⟩ | ⟨x, h', h2, rfl, h3, rfl⟩ | ⟨h', _, _, h2, _⟩ | ⟨h', _, _, h2, _⟩
    · simp at h2
    · cases h3
      refine ⟨.run i 0, { s with pc := upd s.pc i (h' false) }, [], by simp only [Pipe.Pipe.step, hg, h2, if_pos hcl], rfl, ?_⟩
      refine moves_stage hn ?_ rfl
      intro ws hw
      obtain ⟨us, _, _, hus, _⟩ := (@cmd_join α g 0 (s.pc i)).2.1 v h' h2 _ ws hw
      exact hn us hus
    · cases h2
    · cases h2
  · obtain ⟨n', f', hg', hl⟩ := hF i ws hp
    rw [hg] at hg'; cases hg'
    rcases h1 with ⟨_, _, h2, _⟩ | ⟨x, h2, rfl, h3, rfl⟩
    · cases h2
    · cases h3
      refine ⟨.run i u, { s with pc := upd s.pc i (.join (ws.set u .done)) }, [], by
        simp only [Pipe.Pipe.step, hg, hp, Pipe.Stage.cmd, h2, if_pos hcl]; rfl, rfl, ?_⟩
      exact moves_worker hp (by omega) rfl
  · simp at h1

/-- A read with an answer. -/
theorem do_pop {w : Who} {j : Nat} {k : Chan.Op α} {h : Chan.Res α → Loc α} (hF : Frk P s)
    (ho : own P it w (locs P s w) = .call j k h) (hk : k = .pop ∨ k = .next) {o : Option α} {c : Pipe.Chan α}
    (hpop : (s.ch j).pop = some (o, c)) :
    ∃ a s' es, P.step s a = some (s', es) ∧ s'.ch = upd s.ch j c ∧ ∀ r, answer r = o → Moves P s w (h r) s' := by
  rcases own_call ho with ⟨rfl, rfl, h1 | h1⟩ | ⟨i, g, rfl, hg, hn, h1⟩ | ⟨i, u, n, f, ws, rfl, hg, hu, hp, h1⟩ |
      ⟨rfl, he, rfl, h1, rfl⟩
  · obtain ⟨x, _, rfl, _⟩ := h1; simp at hk
  · obtain ⟨_, rfl, _⟩ := h1; simp at hk
  · have hi : i < P.stages.length := by rw [List.getElem?_eq_some_iff] at hg; exact hg.1
    rcases h1 with ⟨h', h2, rfl, _, rfl⟩ | ⟨x, h', _, _, rfl, _⟩ | ⟨h', _, _, rfl, _⟩ | ⟨h', _, _, rfl, _⟩
    · refine ⟨.run j 0, _, _, by simp only [Pipe.Pipe.step, hg, h2, hpop]; rfl, rfl, ?_⟩
      rintro r rfl
      refine moves_stage hn ?_ (got_upd (by intro _; omega))
      intro ws hw
      obtain ⟨us, _, _, hus, _⟩ := (@cmd_join α g 0 (s.pc j)).1 h' h2 _ ws hw
      exact hn us hus
    all_goals simp at hk
  · have hi : i < P.stages.length := by rw [List.getElem?_eq_some_iff] at hg; exact hg.1
    obtain ⟨n', f', hg', hl⟩ := hF i ws hp
    rw [hg] at hg'; cases hg'
    rcases h1 with ⟨h2, rfl, _, rfl⟩ | ⟨x, _, _, rfl, _⟩
    · refine ⟨.run j u, ⟨s.k, s.spc, upd s.pc j (.join (ws.set u (o.elim .done fun v => .put (f v)))),
          upd s.ch j c, s.eof⟩, [], ?_, rfl, ?_⟩
      · simp only [Pipe.Pipe.step, hg, hp, Pipe.Stage.cmd, h2, hpop]
        cases o <;> rfl
      · intro r hr
        have key := @moves_worker α P s j u ws (o.elim .done fun v => .put (f v)) (upd s.ch j c) hp (by omega)
          (@got_upd α s.ch j P.stages.length c (by intro _; omega))
        cases o <;> simp only [hr] <;> exact key
    · simp at hk
  · cases o with
    | none =>
      refine ⟨.pop, { s with ch := upd s.ch P.stages.length c, eof := true }, [.eof], by simp [Pipe.Pipe.step, he, hpop], rfl, ?_⟩
      have hc : c = s.ch P.stages.length := by
        simp only [Pipe.Chan.pop] at hpop
        repeat' split at hpop
        all_goals cases hpop
        rfl
      intro r hr
      simp only [hr]
      refine ⟨by simp [locs, hc], ?_⟩
      intro u hu
      cases u <;> first | rfl | exact absurd rfl hu
    | some v =>
      refine ⟨.pop, { s with ch := upd s.ch P.stages.length c }, [.out v], by simp [Pipe.Pipe.step, he, hpop], rfl, ?_⟩
      have hc : c.got = (s.ch P.stages.length).got ++ [v] := by
        simp only [Pipe.Chan.pop] at hpop
        repeat' split at hpop
        all_goals cases hpop
        rfl
      intro r hr
      simp only [hr]
      refine ⟨by simp [locs, hc, he], ?_⟩
      intro u hu
      cases u <;> first | rfl | exact absurd rfl hu

/-- Closing a channel. -/
theorem do_close {w : Who} {j : Nat} {h : Chan.Res α → Loc α}
    (ho : own P it w (locs P s w) = .call j .close h) :
    ∃ a s' es c, P.step s a = some (s', es) ∧ s'.ch = upd s.ch j c ∧ c.data = (s.ch j).data ∧ c.st ≠ .opened ∧
      ∀ r, Moves P s w (h r) s' := by
  have hst : ∀ (c : Pipe.Chan α) x, x ≠ .opened → (c.close x).st ≠ .opened := by
    intro c x hx
    simp only [Pipe.Chan.close]
    split <;> assumption
  rcases own_call ho with ⟨rfl, rfl, h1 | h1⟩ | ⟨i, g, rfl, hg, hn, h1⟩ | ⟨i, u, n, f, ws, rfl, hg, hu, hp, h1⟩ |
      ⟨rfl, he, rfl, h1, rfl⟩
  · obtain ⟨x, _, h2, _⟩ := h1; cases h2
  · obtain ⟨h2, _, rfl⟩ := h1
    refine ⟨.src, { s with spc := .done, ch := upd s.ch 0 ((s.ch 0).close .fin) }, [.cls 0], (s.ch 0).close .fin, ?_, rfl, rfl,
      hst _ _ (by simp), ?_⟩
    · simp only [Pipe.Pipe.step, h2]
    · intro _
      exact @moves_src α P s s.k .done _ (got_upd (by intro _; rfl))
  · rcases h1 with ⟨h', _, _, h2, _⟩ | ⟨x, h', _, _, h2, _⟩ | ⟨h', h2, rfl, _, rfl⟩ | ⟨h', h2, rfl, _, rfl⟩
    · simp at h2
    · cases h2
    · refine ⟨.run i 0, _, _, (s.ch (i + 1)).close .fin, by simp only [Pipe.Pipe.step, hg, h2]; rfl, rfl, rfl, hst _ _ (by simp), ?_⟩
      intro _
      exact moves_stage hn ((@cmd_join α g 0 (s.pc i)).2.2.1 h' h2) (got_upd (by intro _; rfl))
    · refine ⟨.run j 0, _, _, (s.ch j).close .cut, by simp only [Pipe.Pipe.step, hg, h2]; rfl, rfl, rfl, hst _ _ (by simp), ?_⟩
      intro _
      exact moves_stage hn ((@cmd_join α g 0 (s.pc j)).2.2.2.1 h' h2) (got_upd (by intro _; rfl))
  · rcases h1 with ⟨_, _, h2, _⟩ | ⟨x, _, _, h2, _⟩ <;> cases h2
  · simp at h1

/-- The end of the second wait of a push into an unbuffered channel. -/
theorem do_wait (hp : s.spc = .wait) (hc : (s.ch 0).st ≠ .opened ∨ (s.ch 0).data = []) :
    ∃ a s' es, P.step s a = some (s', es) ∧ s'.ch = s.ch ∧ Moves P s .src (.src s.k .gen) s' := by
  refine ⟨.src, { s with spc := .gen }, [], ?_, rfl, ?_⟩
  · simp only [Pipe.Pipe.step, hp]
    rw [if_pos (by rcases hc with h | h <;> simp [h])]
  · exact @moves_src α P s s.k .gen s.ch rfl

/-- A step outside the channels. -/
theorem do_go {tid : Who → Tid} {inj : ∀ a b, tid a = tid b → a = b} {w : Who} {l : Loc α} {ps : Who → Loc α} (hF : Frk P s)
    (hw : ps w = locs P s w) (he : ∀ u, ended (ps u) = true → locs P s u = ps u)
    (hn : (prog P it tid inj).next w ps = .go l) :
    ∃ a s' es, P.step s a = some (s', es) ∧ s'.ch = s.ch ∧ Moves P s w l s' := by
  cases w with
  | src =>
    simp only [prog, hw, locs, own] at hn
    cases hp : s.spc <;> simp only [hp] at hn
    case gen =>
      cases hv : P.src s.k with
      | none =>
        simp only [hv] at hn; cases hn
        exact ⟨.src, { s with spc := .close }, [], by simp only [Pipe.Pipe.step, hp, hv], rfl, @moves_src α P s s.k .close s.ch rfl⟩
      | some v =>
        simp only [hv] at hn; cases hn
        exact ⟨.src, { s with spc := .put v, k := s.k + 1 }, [], by simp only [Pipe.Pipe.step, hp, hv], rfl,
          @moves_src α P s (s.k + 1) (.put v) s.ch rfl⟩
    all_goals cases hn
  | stage i =>
    simp only [prog] at hn
    by_cases hj : joined P i ps = true
    · simp only [hj, if_true, Next.go.injEq] at hn
      subst hn
      simp only [joined] at hj
      split at hj
      · rename_i n f x hg hx
        rw [hw] at hx
        simp only [locs, Loc.stage.injEq] at hx
        have ⟨ws, hp⟩ : ∃ ws, s.pc i = .join ws := by
          cases hp : s.pc i <;> simp [hp, hide] at hx
          exact ⟨_, rfl⟩
        obtain ⟨n', f', hg', hl⟩ := hF i ws hp
        rw [hg] at hg'; cases hg'
        have hall : ∀ u, u < ws.length → ws[u]? = some .done := by
          intro u hu
          have h1 := List.all_eq_true.1 hj u (by simp; omega)
          have h2 := he _ h1
          have h3 : ps (.worker i u) = .worker .done := by
            cases hc : ps (.worker i u) <;> simp only [hc, ended] at h1 <;> try cases h1
            rename_i y; cases y <;> simp_all
          rw [h3] at h2
          simp only [locs, hp, Loc.worker.injEq, List.getD] at h2
          rw [List.getElem?_eq_getElem hu] at h2 ⊢
          simpa using h2
        refine ⟨.run i ws.length, { s with pc := upd s.pc i .close }, [], ?_, rfl, ?_⟩
        · have hallb : ws.all (fun | .done => true | _ => false) = true := by
            rw [List.all_eq_true]
            intro x hx
            obtain ⟨u, hu, rfl⟩ := List.getElem_of_mem hx
            have := hall u hu
            rw [List.getElem?_eq_getElem hu] at this
            cases this' : ws[u] <;> simp_all
          have hcmd : (Pipe.Stage.fork n f).cmd ws.length (.join ws) = .tau .close := by
            simp only [Pipe.Stage.cmd, List.getElem?_eq_none (Nat.le_refl _)]
            split
            · rfl
            · rename_i hne; exact absurd hallb hne
          simp only [Pipe.Pipe.step, hg, hp, hcmd]
        · refine ⟨by simp [locs, hide], ?_⟩
          intro u hu
          cases u with
          | src => rfl
          | consumer => rfl
          | stage k =>
            have : k ≠ i := by rintro rfl; exact hu rfl
            simp [locs, upd_other _ _ this]
          | worker k v =>
            by_cases hk : k = i
            · subst hk
              simp only [locs, upd_same, hp, Loc.worker.injEq, List.getD]
              by_cases hv : v < ws.length
              · simp [hall v hv]
              · simp [List.getElem?_eq_none (Nat.le_of_not_lt hv)]
            · simp [locs, upd_other _ _ hk]
      · cases hj
    · simp only [hj, Bool.false_eq_true, if_false, hw, locs, own] at hn
      cases hg : P.stages[i]? with
      | none => simp [hg] at hn
      | some g =>
        simp only [hg] at hn
        by_cases hj : joining (hide (s.pc i)) = true
        · simp [hj] at hn
        · simp only [hj, Bool.false_eq_true, if_false] at hn
          have hnj := not_joining (by simpa using hj)
          rw [hide_of_not hnj] at hn
          cases hc : g.cmd 0 (s.pc i) <;> simp only [hc] at hn <;> cases hn
          rename_i h'
          exact ⟨.run i 0, { s with pc := upd s.pc i h' }, [], by simp only [Pipe.Pipe.step, hg, hc], rfl,
            moves_stage hnj ((@cmd_join α g 0 (s.pc i)).2.2.2.2 h' hc) rfl⟩
  | worker i u =>
    exfalso
    simp only [prog, hw, locs, own] at hn
    repeat' split at hn
    all_goals cases hn
  | consumer =>
    exfalso
    simp only [prog, hw, locs, own] at hn
    split at hn <;> cases hn

/-! ## The relation -/

/-- Proof device: what the iterator answers in the end, see `nextC`, `nextE`. (Concerns co_pipeline.h:65-352.) -/
def ans : Option α → Chan.Res α
  | none => .stop
  | some v => .item v

/-- Proof device: the local state of the source while it waits for its value to be taken. (Concerns co_pipeline.h:65-352.) -/
def waiting : Loc α → Loc α
  | .src k _ => .src k .wait
  | l => l

/-- Proof device: the local state of a coroutine inside a call, as if the call returned when it took effect. (Concerns co_pipeline.h:65-352.) -/
def pview (l : Loc α) (h : Chan.Res α → Loc α) : Th Chan.Cv (Chan.Op α) (Chan.Res α) → Loc α
  | .leaving r => h r
  | .ready k | .parked _ k => match k with
    | .nextC o | .nextE o => h (ans o)
    | .syncW => waiting l
    | _ => l
  | .idle => l

/-- Proof device: `pview` for all coroutines. (Concerns co_pipeline.h:65-352.) -/
def view (tid : Who → Tid) (c : Atomic α) (w : Who) : Loc α :=
  match c.inside w with
  | none => c.ps w
  | some (j, h) => pview (c.ps w) h ((c.obs j).th (tid w))

/-- Proof device: where a coroutine inside the call `k` of a channel can be. (Concerns co_pipeline.h:65-352.) -/
def Phase (kd : Chan.Kind) (sh : Chan.Ch α) (k : Chan.Op α) (x : Th Chan.Cv (Chan.Op α) (Chan.Res α)) : Prop :=
  match k with
  | .push v => x = .ready (.push v) ∨ (∃ n, kd = .fixed n ∧ (x = .ready (.pushW v) ∨ x = .parked .full (.pushW v))) ∨
      (kd = .sync ∧ (x = .ready .syncW ∨ x = .parked .full .syncW)) ∨ ∃ b, x = .leaving (.pushed b)
  | .pop => x = .ready .pop ∨ x = .ready .popW ∨ x = .parked .empty .popW ∨ ∃ o, x = .leaving (.popped o)
  | .next => x = .ready .next ∨ x = .ready .nextW ∨ x = .parked .empty .nextW ∨
      (∃ o, (x = .ready (.nextC o) ∨ x = .ready (.nextE o)) ∧ (o = none → sh.closed = true ∧ sh.data = [])) ∨
      (∃ v, x = .leaving (.item v)) ∨ x = .leaving .stop
  | .close => x = .ready .close ∨ x = .leaving .ok
  | _ => False

/-- Proof device: the channels of the two machines agree. (Concerns co_pipeline.h:65-352.) -/
def Agree (a : Chan.Ch α) (c : Pipe.Chan α) : Prop := a.data = c.data ∧ (a.closed = true ↔ c.st ≠ .opened)

/-- Proof device: invariants of the other machine. `sync`: a value in an unbuffered channel has its producer waiting. (Concerns co_pipeline.h:65-352.) -/
structure PI (P : Pipe.Pipe α) (s : Pipe.State α) : Prop where
  frk : Frk P s
  sync : P.kind = .sync → (s.ch 0).st = .opened → (s.ch 0).data ≠ [] → s.spc = .wait
  cap : ∀ n, P.kind = .fixed n → (s.ch 0).data.length ≤ n

theorem pi_init (P : Pipe.Pipe α) : PI P P.init := ⟨frk_init P, by simp [Pipe.Pipe.init], by simp [Pipe.Pipe.init]⟩

theorem chan_pop_st {c c' : Pipe.Chan α} {o : Option α} (h : c.pop = some (o, c')) :
    c'.st = c.st ∧ c'.data.length ≤ c.data.length ∧ (c'.data ≠ [] → c.data ≠ []) := by
  simp only [Pipe.Chan.pop] at h
  repeat' split at h
  all_goals simp only [Option.some.injEq, Prod.mk.injEq, reduceCtorEq] at h
  all_goals obtain ⟨rfl, rfl⟩ := h
  · rename_i hd; simp [hd]
  · simp

theorem pi_step {s' : Pipe.State α} {a : Pipe.Act} {es : List (Pipe.Ev α)} (hI : PI P s) (hs : P.step s a = some (s', es)) : PI P s' := by
  suffices (P.kind = .sync → (s'.ch 0).st = .opened → (s'.ch 0).data ≠ [] → s'.spc = .wait) ∧
      ∀ n, P.kind = .fixed n → (s'.ch 0).data.length ≤ n from ⟨frk_step hI.frk hs, this.1, this.2⟩
  have key : s'.spc = s.spc → (s'.ch 0).data.length ≤ (s.ch 0).data.length → ((s'.ch 0).st = .opened → (s.ch 0).st = .opened) →
      ((s'.ch 0).data ≠ [] → (s.ch 0).data ≠ []) →
      (P.kind = .sync → (s'.ch 0).st = .opened → (s'.ch 0).data ≠ [] → s'.spc = .wait) ∧
      ∀ n, P.kind = .fixed n → (s'.ch 0).data.length ≤ n := by
    intro h1 h2 h3 h4
    refine ⟨fun k1 k2 k3 => ?_, fun n hn => Nat.le_trans h2 (hI.cap n hn)⟩
    rw [h1]; exact hI.sync k1 (h3 k2) (h4 k3)
  have hpop : ∀ j o c, (s.ch j).pop = some (o, c) → s'.spc = s.spc → s'.ch = upd s.ch j c →
      (P.kind = .sync → (s'.ch 0).st = .opened → (s'.ch 0).data ≠ [] → s'.spc = .wait) ∧
      ∀ n, P.kind = .fixed n → (s'.ch 0).data.length ≤ n := by
    intro j o c h1 h2 h3
    obtain ⟨q1, q2, q3⟩ := chan_pop_st h1
    apply key h2 <;> rw [h3] <;> by_cases hj : 0 = j
    · subst hj; simpa using q2
    · rw [upd_other _ _ hj]
    · subst hj; simp [q1]
    · rw [upd_other _ _ hj]; exact id
    · subst hj; simpa using q3
    · rw [upd_other _ _ hj]; exact id
  have hclose : ∀ j x, x ≠ .opened → s'.spc = s.spc → s'.ch = upd s.ch j ((s.ch j).close x) →
      (P.kind = .sync → (s'.ch 0).st = .opened → (s'.ch 0).data ≠ [] → s'.spc = .wait) ∧
      ∀ n, P.kind = .fixed n → (s'.ch 0).data.length ≤ n := by
    intro j x hx h2 h3
    apply key h2 <;> rw [h3] <;> by_cases hj : 0 = j
    · subst hj; simp [Pipe.Chan.close]
    · rw [upd_other _ _ hj]
    · subst hj; simp only [upd_same, Pipe.Chan.close]; split <;> simp_all
    · rw [upd_other _ _ hj]; exact id
    · subst hj; simp [Pipe.Chan.close]
    · rw [upd_other _ _ hj]; exact id
  cases a with
  | src =>
    simp only [Pipe.Pipe.step] at hs
    cases hp : s.spc with
    | gen =>
      have hd : P.kind = .sync → (s.ch 0).st = .opened → (s.ch 0).data = [] := by
        intro h1 h2
        by_cases h3 : (s.ch 0).data = []
        · exact h3
        · have := hI.sync h1 h2 h3; rw [hp] at this; cases this
      simp only [hp] at hs
      split at hs <;> cases hs <;> exact ⟨fun h1 h2 h3 => absurd (hd h1 h2) h3, hI.cap⟩
    | put v =>
      simp only [hp] at hs
      split at hs
      · cases hs
        refine ⟨fun h1 h2 h3 => absurd h2 ?_, hI.cap⟩
        assumption
      · split at hs
        · rename_i hr
          cases hs
          refine ⟨fun h1 h2 h3 => by simp [h1], fun n hn => ?_⟩
          simp only [hn, Pipe.Kind.room, decide_eq_true_eq] at hr
          simp [Pipe.Chan.push]; omega
        · cases hs
    | wait =>
      simp only [hp] at hs
      split at hs
      · rename_i hr
        cases hs
        refine ⟨fun h1 h2 h3 => ?_, hI.cap⟩
        rcases hr with hr | hr
        · exact absurd h2 hr
        · exact absurd (List.eq_nil_of_length_eq_zero hr) h3
      · cases hs
    | close =>
      simp only [hp] at hs
      cases hs
      refine ⟨fun h1 h2 h3 => absurd h2 ?_, ?_⟩
      · simp only [upd_same, Pipe.Chan.close]; split <;> simp_all
      · simpa [Pipe.Chan.close] using hI.cap
    | done => simp [hp] at hs
  | pop =>
    simp only [Pipe.Pipe.step] at hs
    split at hs
    · cases hs
    · split at hs
      · cases hs
      · rename_i h; cases hs; exact hpop _ _ _ h rfl rfl
      · rename_i h; cases hs; exact hpop _ _ _ h rfl rfl
  | run i w =>
    simp only [Pipe.Pipe.step] at hs
    cases hg : P.stages[i]? with
    | none => simp [hg] at hs
    | some g =>
      simp only [hg] at hs
      cases hc : g.cmd w (s.pc i) with
      | stop => simp [hc] at hs
      | tau h => simp only [hc] at hs; cases hs; exact ⟨hI.sync, hI.cap⟩
      | cut h => simp only [hc] at hs; cases hs; exact hclose _ _ (by simp) rfl rfl
      | close h => simp only [hc] at hs; cases hs; exact hclose _ _ (by simp) rfl rfl
      | push v h =>
        simp only [hc] at hs
        split at hs <;> cases hs
        · exact ⟨hI.sync, hI.cap⟩
        · refine ⟨?_, ?_⟩ <;> simp only [upd_other s.ch _ (Nat.succ_ne_zero i).symm]
          · exact hI.sync
          · exact hI.cap
      | pop h =>
        simp only [hc] at hs
        split at hs <;> cases hs
        rename_i h
        exact hpop _ _ _ h rfl rfl

/-- Proof device: the relation between the machines. (Concerns co_pipeline.h:65-352.) -/
structure R (P : Pipe.Pipe α) (it : Bool) (tid : Who → Tid) (c : Atomic α) (s : Pipe.State α) : Prop where
  ch : ∀ j, Agree (c.obs j).sh (s.ch j)
  view : ∀ w, view tid c w = locs P s w
  calls : ∀ w j h, c.inside w = some (j, h) → ∃ k, own P it w (c.ps w) = .call j k h ∧
    Phase (kindAt P j) (c.obs j).sh k ((c.obs j).th (tid w))
  pi : PI P s
  wf : ∀ j, (c.obs j).Wf

theorem phase_settle {kd : Chan.Kind} {sh sh' : Chan.Ch α} {k : Chan.Op α} {x : Th Chan.Cv (Chan.Op α) (Chan.Res α)}
    {wq : Chan.Cv → List Tid} {u : Tid} (hsh : sh.closed = true ∧ sh.data = [] → sh'.closed = true ∧ sh'.data = [])
    (h : Phase kd sh k x) : Phase kd sh' k (settle wq u x) := by
  cases k <;> simp only [Phase] at h ⊢
  case push v =>
    rcases h with rfl | ⟨n, hn, rfl | rfl⟩ | ⟨hn, rfl | rfl⟩ | ⟨b, rfl⟩
    · exact .inl rfl
    · exact .inr (.inl ⟨n, hn, .inl rfl⟩)
    · refine .inr (.inl ⟨n, hn, ?_⟩)
      simp only [settle]; split <;> simp
    · exact .inr (.inr (.inl ⟨hn, .inl rfl⟩))
    · refine .inr (.inr (.inl ⟨hn, ?_⟩))
      simp only [settle]; split <;> simp
    · exact .inr (.inr (.inr ⟨b, rfl⟩))
  case pop =>
    rcases h with rfl | rfl | rfl | ⟨o, rfl⟩
    · exact .inl rfl
    · exact .inr (.inl rfl)
    · simp only [settle]; split <;> simp
    · exact .inr (.inr (.inr ⟨o, rfl⟩))
  case next =>
    rcases h with rfl | rfl | rfl | ⟨o, rfl | rfl, ho⟩ | ⟨v, rfl⟩ | rfl
    · exact .inl rfl
    · exact .inr (.inl rfl)
    · simp only [settle]; split <;> simp
    · exact .inr (.inr (.inr (.inl ⟨o, .inl rfl, fun h => hsh (ho h)⟩)))
    · exact .inr (.inr (.inr (.inl ⟨o, .inr rfl, fun h => hsh (ho h)⟩)))
    · exact .inr (.inr (.inr (.inr (.inl ⟨v, rfl⟩))))
    · exact .inr (.inr (.inr (.inr (.inr rfl))))
  case close =>
    rcases h with rfl | rfl
    · exact .inl rfl
    · exact .inr rfl
  all_goals exact h.elim

theorem pview_settle {l : Loc α} {h : Chan.Res α → Loc α} {wq : Chan.Cv → List Tid} {u : Tid}
    {x : Th Chan.Cv (Chan.Op α) (Chan.Res α)} : pview l h (settle wq u x) = pview l h x := by
  cases x <;> simp only [settle]
  split <;> rfl

/-- Proof device: one critical section of `w` in channel `j`, and what it does to the other machine. -/
theorem R.frame {tid : Who → Tid} (inj : ∀ a b, tid a = tid b → a = b) {c : Atomic α} (hR : R P it tid c s) {w : Who} {j : Nat}
    {h : Chan.Res α → Loc α} {k : Chan.Op α} (hin : c.inside w = some (j, h)) (ho : own P it w (c.ps w) = .call j k h)
    {a : Monitor.Abs (Chan.Ch α) Chan.Cv (Chan.Op α) (Chan.Res α)} {wq : Chan.Cv → List Tid}
    (hoth : ∀ u, u ≠ tid w → a.th u = settle wq u ((c.obs j).th u)) (hwf : a.Wf)
    (hdr : (c.obs j).sh.closed = true ∧ (c.obs j).sh.data = [] → a.sh.closed = true ∧ a.sh.data = [])
    (hph : Phase (kindAt P j) a.sh k (a.th (tid w))) {s' : Pipe.State α} {ch : Pipe.Chan α} (hch : s'.ch = upd s.ch j ch)
    (hag : Agree a.sh ch) (hmv : Moves P s w (pview (c.ps w) h (a.th (tid w))) s') (hF : PI P s') :
    R P it tid { c with obs := upd c.obs j a } s' := by
  refine ⟨?_, ?_, ?_, hF, ?_⟩
  · intro i
    by_cases hi : i = j
    · subst hi; simpa [hch] using hag
    · simpa [hch, hi] using hR.ch i
  · intro u
    by_cases hu : u = w
    · subst hu
      rw [hmv.1]
      simp [Real.view, hin]
    · rw [hmv.2 u hu, ← hR.view u]
      simp only [Real.view]
      cases hi : c.inside u with
      | none => rfl
      | some q =>
        obtain ⟨i, g⟩ := q
        simp only
        by_cases hij : i = j
        · subst hij
          rw [upd_same, hoth _ (fun hh => hu (inj _ _ hh)), pview_settle]
        · rw [upd_other _ _ hij]
  · intro u i g hi
    by_cases hu : u = w
    · subst hu
      have hi : c.inside u = some (i, g) := hi
      rw [hin] at hi; cases hi
      exact ⟨k, ho, by simpa using hph⟩
    · obtain ⟨k', h1, h2⟩ := hR.calls u i g hi
      refine ⟨k', h1, ?_⟩
      simp only
      by_cases hij : i = j
      · subst hij
        rw [upd_same, hoth _ (fun hh => hu (inj _ _ hh))]
        exact phase_settle hdr h2
      · rw [upd_other _ _ hij]; exact h2
  · intro i
    by_cases hi : i = j
    · subst hi; simpa using hwf
    · simpa [hi] using hR.wf i

/-! ## A critical section -/

/-- Proof device: what a coroutine inside a call can still do before the other machine moves. (Concerns co_pipeline.h:65-352.) -/
def tw : Th Chan.Cv (Chan.Op α) (Chan.Res α) → Nat
  | .leaving _ => 6
  | .ready k => match k with
    | .nextC _ => 8
    | .nextE _ => 7
    | _ => 4
  | .parked _ _ => 3
  | .idle => 5

/-- Proof device: the same for all coroutines. (Concerns co_pipeline.h:65-352.) -/
def wgt (tid : Who → Tid) (c : Atomic α) (w : Who) : Nat :=
  match c.inside w with
  | none => 5
  | some (j, _) => tw ((c.obs j).th (tid w))

/-- Proof device: a step of `w` that the other machine does not make. (Concerns co_pipeline.h:65-352.) -/
def Quiet (P : Pipe.Pipe α) (it : Bool) (tid : Who → Tid) (c c' : Atomic α) (s : Pipe.State α) (w : Who) : Prop :=
  R P it tid c' s ∧ wgt tid c' w < wgt tid c w ∧ ∀ u, u ≠ w → wgt tid c' u = wgt tid c u

/-- Proof device: a step that the other machine makes. (Concerns co_pipeline.h:65-352.) -/
def Loud (P : Pipe.Pipe α) (it : Bool) (tid : Who → Tid) (c' : Atomic α) (s : Pipe.State α) : Prop :=
  ∃ a s' es, P.step s a = some (s', es) ∧ R P it tid c' s'

theorem settle_same {a : Monitor.Abs (Chan.Ch α) Chan.Cv (Chan.Op α) (Chan.Res α)} (hw : a.Wf) {t u : Tid}
    {f : Fin Chan.Cv (Chan.Op α) (Chan.Res α)} : settle (enqueue a.wq t f) u (a.th u) = a.th u := by
  cases hx : a.th u with
  | parked c k =>
    have hm := (hw.mem c u).2 ⟨k, hx⟩
    have : u ∈ enqueue a.wq t f c := by
      cases f with
      | park d k' =>
        simp only [enqueue]
        by_cases hd : c = d
        · subst hd; simp [hm]
        · rw [setC_other _ _ hd]; exact hm
      | _ => exact hm
    simp [settle, this]
  | _ => rfl

/-- Proof device: the section `r` takes no effect. -/
theorem quiet_run {tid : Who → Tid} (inj : ∀ a b, tid a = tid b → a = b) {c : Atomic α} (hR : R P it tid c s) {w : Who} {j : Nat}
    {h : Chan.Res α → Loc α} {k0 k : Chan.Op α} (hin : c.inside w = some (j, h)) (ho : own P it w (c.ps w) = .call j k0 h)
    (hth : (c.obs j).th (tid w) = .ready k) {a : Monitor.Abs (Chan.Ch α) Chan.Cv (Chan.Op α) (Chan.Res α)} {es}
    (hs : (c.obs j).step (chans P j) (.run (tid w)) = some (a, es))
    {f : Fin Chan.Cv (Chan.Op α) (Chan.Res α)} (hb : (chans P j).body (tid w) k (c.obs j).sh = ⟨(c.obs j).sh, [], [], f⟩)
    (hph : Phase (kindAt P j) (c.obs j).sh k0 f.th) (hv : pview (c.ps w) h f.th = pview (c.ps w) h (.ready k))
    (ht : tw f.th < tw (.ready k : Th Chan.Cv (Chan.Op α) (Chan.Res α))) :
    Quiet P it tid c { c with obs := upd c.obs j a } s w := by
  have hwf := Abs.wf_step _ _ _ _ (hR.wf j) hs
  simp only [Monitor.Abs.step, hth, hb, List.foldl_nil, Option.some.injEq, Prod.mk.injEq] at hs
  obtain ⟨rfl, -⟩ := hs
  have hoth : ∀ u, u ≠ tid w → upd (fun u => settle (enqueue (c.obs j).wq (tid w) f) u ((c.obs j).th u)) (tid w) f.th u =
      (c.obs j).th u := by
    intro u hu
    rw [upd_other _ _ hu]; exact settle_same (hR.wf j)
  have hview : pview (c.ps w) h (.ready k) = locs P s w := by
    rw [← hR.view w]; simp only [view, hin, hth]
  refine ⟨hR.frame inj (wq := enqueue (c.obs j).wq (tid w) f) hin ho ?_ hwf id (by simpa using hph) (ch := s.ch j) (upd_id _ _).symm
    (hR.ch j) ?_ hR.pi, ?_, ?_⟩
  · intro u hu
    simp only [upd_other _ _ hu]
  · refine ⟨?_, fun _ _ => rfl⟩
    simp only [upd_same, hv, hview]
  · simp only [wgt, hin, upd_same, hth]; exact ht
  · intro u hu
    simp only [wgt]
    cases hi : c.inside u with
    | none => rfl
    | some q =>
      obtain ⟨i, g⟩ := q
      simp only
      by_cases hij : i = j
      · subst hij
        rw [upd_same]
        simp only [hoth _ (fun hh => hu (inj _ _ hh))]
      · rw [upd_other _ _ hij]

/-- Proof device: the section `r` takes effect. -/
theorem loud_run {tid : Who → Tid} (inj : ∀ a b, tid a = tid b → a = b) {c : Atomic α} (hR : R P it tid c s) {w : Who} {j : Nat}
    {h : Chan.Res α → Loc α} {k0 k : Chan.Op α} (hin : c.inside w = some (j, h)) (ho : own P it w (c.ps w) = .call j k0 h)
    (hth : (c.obs j).th (tid w) = .ready k) {a : Monitor.Abs (Chan.Ch α) Chan.Cv (Chan.Op α) (Chan.Res α)} {es}
    (hs : (c.obs j).step (chans P j) (.run (tid w)) = some (a, es))
    {r : Chan.O α} (hb : (chans P j).body (tid w) k (c.obs j).sh = r)
    (hdr : (c.obs j).sh.closed = true ∧ (c.obs j).sh.data = [] → r.sh.closed = true ∧ r.sh.data = [])
    (hph : Phase (kindAt P j) r.sh k0 r.fin.th) {s' : Pipe.State α} {x : Pipe.Act} {ps : List (Pipe.Ev α)}
    (hx : P.step s x = some (s', ps)) {ch : Pipe.Chan α} (hch : s'.ch = upd s.ch j ch) (hag : Agree r.sh ch)
    (hmv : Moves P s w (pview (c.ps w) h r.fin.th) s') :
    Loud P it tid { c with obs := upd c.obs j a } s := by
  have hwf := Abs.wf_step _ _ _ _ (hR.wf j) hs
  simp only [Monitor.Abs.step, hth, hb, Option.some.injEq, Prod.mk.injEq] at hs
  obtain ⟨rfl, -⟩ := hs
  refine ⟨x, s', ps, hx, hR.frame inj (wq := enqueue (r.sigs.foldl notify (c.obs j).wq) (tid w) r.fin) hin ho ?_ hwf hdr
    (by simpa using hph) hch hag (by simpa using hmv) (pi_step hR.pi hx)⟩
  intro u hu
  simp only [upd_other _ _ hu]

end Verif.Real
