import Verif.Base.Prog

/-!
# Locks built on a spinlock order the accesses of their users

What co_recursive_mutex and co_shared_mutex have in common (co_recursive_mutex.cpp:14-107, co_shared_mutex.cpp:15-218): the owners are kept
under an internal spinlock, a call that acquires ends by releasing the spinlock, and only the owner itself, inside the spinlock, gives the
lock up. From this follows that the accesses of owners are ordered by happens-before, though the only synchronisation is the spinlock's.
-/

namespace Verif.LockHb

open Verif.Hb Verif.Prog

/-- What is looked at in a state of the lock: who has the internal spinlock, who owns the lock (`w`: exclusively), and who is back from the
call that acquired it. Not in the library. -/
structure View (S : Type) where
  spin : S → Option Nat
  own : S → Nat → Bool → Prop
  hold : S → Nat → Bool → Prop

/-- The lock operation of the internal spinlock between two states (co_spinlock.cpp:14, 27). -/
def spinOps {S X : Type} (v : View S) (s s' : S) : Tr Unit X :=
  match v.spin s, v.spin s' with
  | none, some t => [(t, .acq ())]
  | some t, none => [(t, .rel ())]
  | _, _ => []

/-- Who is back from the call owns the lock, and owners exclude each other unless both only read. Not in the library. -/
structure Good {S : Type} (v : View S) (s : S) : Prop where
  sub : ∀ c w, v.hold s c w → v.own s c w
  excl : ∀ a c w w', v.own s a w → v.hold s c w' → (w || w') = true → a = c

/-- What a step of the lock may do: a call that acquires ends by releasing the spinlock, ownership is given up inside the spinlock by the
owner, and the spinlock is not handed over. Not in the library. -/
structure Fair {S : Type} (v : View S) (s s' : S) : Prop where
  gain : ∀ c w, v.hold s' c w → v.hold s c w ∨ (v.spin s = some c ∧ v.spin s' = none)
  lose : ∀ c w, v.own s c w → v.own s' c w ∨ (v.spin s = some c ∧ v.spin s' = some c)
  hand : ∀ c d, v.spin s = some c → v.spin s' = some d → c = d

/-- A guarded access, and whether it writes. Not in the library. -/
def isAcc {X : Type} (g : X → Bool) (p : Op Unit X) (w : Bool) : Prop := ∃ x, g x = true ∧ p = if w then .wr x else .rd x

theorem isAcc.ne {X : Type} {g : X → Bool} {p : Op Unit X} {w : Bool} (h : isAcc g p w) : p ≠ Op.acq () ∧ p ≠ Op.rel () := by
  obtain ⟨x, _, rfl⟩ := h; cases w <;> simp

/-- The invariant: of every guarded access in the past, its coroutine owns the lock still, or it has since taken the spinlock, and whoever
else holds the lock in a way that conflicts has released the spinlock after that. Not in the library. -/
structure HInv {S X : Type} (v : View S) (g : X → Bool) (s : S) (tr : Tr Unit X) : Prop where
  spin : holder () tr = v.spin s
  wf : WF tr
  sect : ∀ (i : Nat) (a : Nat) (p : Op Unit X) (w : Bool), tr[i]? = some (a, p) → isAcc g p w → v.spin s = some a →
    ∃ n : Nat, i < n ∧ tr[n]? = some (a, Op.acq ())
  past : ∀ (i : Nat) (a : Nat) (p : Op Unit X) (w : Bool), tr[i]? = some (a, p) → isAcc g p w → v.own s a w ∨
    ∃ n : Nat, i < n ∧ tr[n]? = some (a, Op.acq ()) ∧ ∀ c w', c ≠ a → (w || w') = true → v.hold s c w' →
      ∃ m : Nat, n < m ∧ tr[m]? = some (c, Op.rel ())
  good : ∀ (i j : Nat) (a b : Nat) (p q : Op Unit X) (w w' : Bool), i < j → tr[i]? = some (a, p) → tr[j]? = some (b, q) → isAcc g p w →
    isAcc g q w' → (w || w') = true → HB tr i j

theorem hinv_init {S X : Type} {v : View S} {g : X → Bool} {s : S} (h : v.spin s = none) : HInv v g s ([] : Tr Unit X) where
  spin := h.symm
  wf k a l := by simp
  sect i a p w h := by simp at h
  past i a p w h := by simp at h
  good i j a b p q w w' _ h := by simp at h

theorem getElem?_le {X : Type} {tr : Tr Unit X} (e : Tr Unit X) {k : Nat} {f : Nat × Op Unit X} (hk : tr[k]? = some f) : (tr ++ e)[k]? = some f := by
  rw [List.getElem?_append_left (List.getElem?_eq_some_iff.1 hk).1]; exact hk

/-- The invariant after a step of the lock. -/
theorem hinv_lib {S X : Type} {v : View S} {g : X → Bool} {s s1 : S} {tr : Tr Unit X} (h : HInv v g s tr) (hgd : Good v s) (hf : Fair v s s1) :
    HInv v g s1 (tr ++ spinOps v s s1) := by
  obtain ⟨hsp, hw, hk, hp, hg⟩ := h
  obtain ⟨f1, f2, f4⟩ := hf
  have hcase : (spinOps v s s1 = ([] : Tr Unit X) ∧ v.spin s1 = v.spin s) ∨
      (∃ t, v.spin s = none ∧ v.spin s1 = some t ∧ spinOps v s s1 = ([(t, .acq ())] : Tr Unit X)) ∨
      (∃ t, v.spin s = some t ∧ v.spin s1 = none ∧ spinOps v s s1 = ([(t, .rel ())] : Tr Unit X)) := by
    simp only [spinOps]
    cases h1 : v.spin s <;> cases h2 : v.spin s1
    · exact .inl ⟨rfl, rfl⟩
    · exact .inr (.inl ⟨_, rfl, rfl, rfl⟩)
    · exact .inr (.inr ⟨_, rfl, rfl, rfl⟩)
    · have := f4 _ _ h1 h2; subst this; exact .inl ⟨rfl, rfl⟩
  have hold_acc : ∀ (i : Nat) (b : Nat) (p : Op Unit X) (w : Bool), (tr ++ spinOps v s s1)[i]? = some (b, p) → isAcc g p w → tr[i]? = some (b, p) := by
    intro i b p w hb hacc
    rcases hcase with ⟨h0, _⟩ | ⟨t, _, _, h0⟩ | ⟨t, _, _, h0⟩ <;> rw [h0] at hb
    · simpa using hb
    · rcases getElem?_snoc _ _ _ _ hb with ⟨_, hb⟩ | ⟨_, hb⟩
      · exact hb
      · cases hb; exact absurd rfl hacc.ne.1
    · rcases getElem?_snoc _ _ _ _ hb with ⟨_, hb⟩ | ⟨_, hb⟩
      · exact hb
      · cases hb; exact absurd rfl hacc.ne.2
  refine ⟨?_, ?_, ?_, ?_, ?_⟩
  · rcases hcase with ⟨h0, h1⟩ | ⟨t, h1, h2, h0⟩ | ⟨t, h1, h2, h0⟩ <;> rw [h0]
    · rw [List.append_nil, h1]; exact hsp
    · rw [holder_snoc, h2]; simp
    · rw [holder_snoc, h2]; simp
  · rcases hcase with ⟨h0, h1⟩ | ⟨t, h1, h2, h0⟩ | ⟨t, h1, h2, h0⟩ <;> rw [h0]
    · rw [List.append_nil]; exact hw
    · exact WF.snoc hw _ (fun l _ => by rw [hsp, h1]) (fun l hl => by cases hl)
    · exact WF.snoc hw _ (fun l hl => by cases hl) (fun l _ => by rw [hsp, h1])
  · intro i b p w hb hacc hs1
    have hb := hold_acc i b p w hb hacc
    cases h0 : v.spin s with
    | some d =>
      have := f4 _ _ h0 hs1
      subst this
      obtain ⟨n, hn, hn'⟩ := hk i d p w hb hacc h0
      exact ⟨n, hn, getElem?_le _ hn'⟩
    | none =>
      refine ⟨tr.length, (List.getElem?_eq_some_iff.1 hb).1, ?_⟩
      simp [spinOps, h0, hs1]
  · intro i b p w hb hacc
    have hb := hold_acc i b p w hb hacc
    rcases hp i b p w hb hacc with h0 | ⟨n, hn, hn', hc⟩
    · rcases f2 b w h0 with h1 | ⟨h1, _⟩
      · exact .inl h1
      · obtain ⟨n, hn, hn'⟩ := hk i b p w hb hacc h1
        refine .inr ⟨n, hn, getElem?_le _ hn', fun c w' hcb hww hch => ?_⟩
        rcases f1 c w' hch with h2 | ⟨h2, _⟩
        · exact absurd (hgd.excl b c w w' h0 h2 hww).symm hcb
        · rw [h2] at h1; cases h1; exact absurd rfl hcb
    · refine .inr ⟨n, hn, getElem?_le _ hn', fun c w' hcb hww hch => ?_⟩
      rcases f1 c w' hch with h2 | ⟨h2, h3⟩
      · obtain ⟨m, hm, hm'⟩ := hc c w' hcb hww h2
        exact ⟨m, hm, getElem?_le _ hm'⟩
      · refine ⟨tr.length, (List.getElem?_eq_some_iff.1 hn').1, ?_⟩
        simp [spinOps, h2, h3]
  · intro i j b c p q w w' hij hb hc hpa hqa hww
    exact hb_mono _ (hg i j b c p q w w' hij (hold_acc _ _ _ _ hb hpa) (hold_acc _ _ _ _ hc hqa) hpa hqa hww)

/-- The invariant after an access: to guarded data only outside the spinlock by a holder of the lock. -/
theorem hinv_acc {S X : Type} {v : View S} {g : X → Bool} {s : S} {tr : Tr Unit X} (h : HInv v g s tr) (hgd : Good v s) (t : Nat) (u : Bool) (x : X)
    (hcl : g x = true → v.spin s ≠ some t ∧ v.hold s t u) : HInv v g s (tr ++ [(t, if u then .wr x else .rd x)]) := by
  obtain ⟨hsp, hw, hk, hp, hg⟩ := h
  generalize hp0 : (if u = true then Op.wr x else Op.rd x : Op Unit X) = p at *
  have hne : p ≠ Op.acq () ∧ p ≠ Op.rel () := by subst hp0; constructor <;> split <;> simp
  have hsp' : ∀ c, holder () (tr ++ [(c, p)]) = holder () tr := by
    intro c; rw [holder_snoc]; subst hp0; cases u <;> simp
  have hw' : WF (tr ++ [(t, p)]) := WF.snoc hw _ (fun l hl => absurd hl hne.1) (fun l hl => absurd hl hne.2)
  -- a guarded access is made by a holder
  have hacc : ∀ w, isAcc g p w → w = u ∧ v.spin s ≠ some t ∧ v.hold s t u := by
    rintro w ⟨y, hy, hpy⟩
    have : w = u ∧ y = x := by subst hp0; cases w <;> cases u <;> simp_all
    obtain ⟨rfl, rfl⟩ := this
    exact ⟨rfl, hcl hy⟩
  refine ⟨by rw [hsp', hsp], hw', ?_, ?_, ?_⟩
  · intro i b q w hb hq hpc
    rcases getElem?_snoc _ _ _ _ hb with ⟨_, hb⟩ | ⟨_, hb⟩
    · obtain ⟨n, hn, hn'⟩ := hk i b q w hb hq hpc
      exact ⟨n, hn, getElem?_le _ hn'⟩
    · cases hb; exact absurd hpc (hacc w hq).2.1
  · intro i b q w hb hq
    rcases getElem?_snoc _ _ _ _ hb with ⟨_, hb⟩ | ⟨_, hb⟩
    · rcases hp i b q w hb hq with h0 | ⟨n, hn, hn', hc⟩
      · exact .inl h0
      · refine .inr ⟨n, hn, getElem?_le _ hn', fun c w' hcb hww hch => ?_⟩
        obtain ⟨m, hm, hm'⟩ := hc c w' hcb hww hch
        exact ⟨m, hm, getElem?_le _ hm'⟩
    · cases hb
      obtain ⟨rfl, _, h2⟩ := hacc w hq
      exact .inl (hgd.sub _ _ h2)
  · intro i j b c q r w w' hij hb hc hqa hra hww
    rcases getElem?_snoc _ _ _ _ hc with ⟨hj, hc'⟩ | ⟨hj, hc'⟩
    · rcases getElem?_snoc _ _ _ _ hb with ⟨_, hb⟩ | ⟨hi', _⟩
      · exact hb_mono _ (hg i j b c q r w w' hij hb hc' hqa hra hww)
      · omega
    · rcases getElem?_snoc _ _ _ _ hb with ⟨_, hb'⟩ | ⟨hi', _⟩
      · simp only [Prod.mk.injEq] at hc'
        obtain ⟨rfl, rfl⟩ := hc'
        obtain ⟨rfl, _, h2⟩ := hacc w' hra
        by_cases hbc : b = c
        · subst hbc; exact HB.po hij hb hc
        · rcases hp i b q w hb' hqa with h0 | ⟨n, hn, hn', hcx⟩
          · exact absurd (hgd.excl b c w w' h0 h2 hww) hbc
          · obtain ⟨m, hm, hm'⟩ := hcx c w' (Ne.symm hbc) hww h2
            -- `b` has the spinlock right after `n`, `c` right before `m`
            have hmlt : m < tr.length := (List.getElem?_eq_some_iff.1 hm').1
            have hb1 : holder () (tr.take (n + 1)) = some b := by rw [holder_succ () tr n _ hn']; simp
            have hc1 : holder () (tr.take m) = some c := (hw m c ()).2 hm'
            have hnm : HB tr n m := by
              rcases chain hw () (n + 1) b hb1 m (by omega) (by omega) with h3 | ⟨r', hr1, hr2, h3 | h3⟩
              · rw [hc1] at h3; cases h3; exact absurd rfl hbc
              · obtain ⟨c', k, h4, h5, h6, h7, h8⟩ := h3
                rw [hc1] at h4; cases h4
                exact (HB.po (by omega) hn' hr2).trans (h8.trans (HB.po h6 h7 hm'))
              · obtain ⟨_, _, h4, _⟩ := h3; rw [hc1] at h4; cases h4
            exact ((HB.po hn hb (getElem?_le _ hn')).trans (hb_mono _ hnm)).trans (HB.po (by omega) (getElem?_le _ hm') hc)
      · omega

/-- Guarded data has no race. -/
theorem HInv.no_race {S X : Type} {v : View S} {g : X → Bool} {s : S} {tr : Tr Unit X} (h : HInv v g s tr) (x : X) (hx : g x = true) : ¬ Race tr x := by
  rintro ⟨i, j, a, b, p, q, hij, hi, hj, _, hp, hq, hwr, hn⟩
  have key : ∀ r : Op Unit X, r.touches x → ∃ w, isAcc g r w ∧ (r = .wr x → w = true) := by
    rintro r (rfl | rfl)
    · exact ⟨false, ⟨x, hx, rfl⟩, fun h => by cases h⟩
    · exact ⟨true, ⟨x, hx, rfl⟩, fun _ => rfl⟩
  obtain ⟨w, h1, h2⟩ := key p hp
  obtain ⟨w', h3, h4⟩ := key q hq
  refine hn (h.good i j a b p q w w' hij hi hj h1 h3 ?_)
  rcases hwr with hr | hr
  · rw [h2 hr]; rfl
  · rw [h4 hr]; simp

end Verif.LockHb
