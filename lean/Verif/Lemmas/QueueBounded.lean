import Verif.Lemmas.QueueLive
import Verif.Lemmas.QueueIa64Impl

/-!
# The number of accesses in a remove call is bounded
-/

set_option autoImplicit false

namespace Fstrm

open Spec (QEv Call)

/-- `cl` is the number of accesses left in a remove call, at most `M`; an access that does not bring the call forward
changes nothing. -/
structure QImpl.ConsBounded (Q : QImpl) (num sz : UInt32) (R : Q.S → QGhost → Prop) (M : Nat) (cl : Q.S → Nat) :
    Prop where
  create : ∀ s, Q.create num sz = some s → cl s ≤ M
  insert : ∀ s t x s', Q.insert s t x = some s' → cl s' ≤ cl s
  prod : ∀ s g t k s' os, R s g → Q.prod s t k = .ok (s', os) → cl s' ≤ cl s
  flush : ∀ s g b i s' os, R s g → Q.flush s b i = .ok (s', os) → cl s' ≤ cl s
  remove : ∀ s s', Q.remove s = some s' → cl s' < cl s
  cons : ∀ s g k s' r, R s g → g.taking = true → Q.cons s k = .ok (s', r) →
    (r = none ∧ (cl s' < cl s ∨ s' = s)) ∨ (r ≠ none ∧ cl s' ≤ M)

/-! ## The lock-free queue -/

theorem Tso.pstep_c {s s' : Tso} {k : Nat} (h : s.pstep k = .ok s') : s'.c = s.c := by
  unfold Tso.pstep at h
  split at h
  · cases h; rfl
  · cases h; rfl
  · simp only at h
    split at h <;> cases h <;> rfl
  · cases h; rfl
  · simp only at h
    split at h <;> cases h
    rfl

theorem Tso.cstep_cl {s s' : Tso} {k sz : Nat} (hsz : s.q.sz.toNat = sz) (hc : s.c ≠ .idle)
    (h : s.cstep k = .ok s') :
      (s'.log.filterMap QEv.ret = s.log.filterMap QEv.ret ∧ (s'.log = s.log ∨ s'.log = s.log ++ [.look]) ∧
        (s'.c.left sz < s.c.left sz ∨ s' = s)) ∨
      (∃ e r, s'.log = s.log ++ [e] ∧ e.ret = some r ∧ s'.c = .idle) := by
  unfold Tso.cstep at h
  split at h
  · rename_i e; exact absurd e hc
  · rename_i e; cases h
    exact Or.inl ⟨by simp [QEv.ret], Or.inr rfl, Or.inl (by simp only [e, CPc.left]; omega)⟩
  · rename_i e
    simp only at h
    split at h <;> cases h
    · exact Or.inl ⟨rfl, Or.inl rfl, Or.inl (by simp only [e, CPc.left, List.length_range, hsz]; omega)⟩
    · exact Or.inr ⟨_, _, rfl, rfl, rfl⟩
  · rename_i e
    split at h
    · cases h
      exact Or.inl ⟨rfl, Or.inl rfl, Or.inl (by simp only [e, CPc.left, List.length_nil]; omega)⟩
    · cases h
      exact Or.inl ⟨rfl, Or.inl rfl, Or.inr rfl⟩
  · rename_i t todo e
    simp only at h
    split at h
    · cases h
    · cases h
      refine Or.inl ⟨rfl, Or.inl rfl, Or.inl ?_⟩
      simp only [e, CPc.left, erase_choose_length, List.length_cons]; omega
  · rename_i e
    cases h
    exact Or.inr ⟨_, _, rfl, rfl, rfl⟩

/-- Removing from the lock-free queue takes at most the element's size and seven accesses. -/
theorem tso_cons_bounded {num sz : UInt32} :
    tsoQueue.ConsBounded num sz (TsoR num sz) (sz.toNat + 8) (fun s => s.c.left sz.toNat) where
  create := by
    intro s hs
    obtain ⟨q, _, rfl⟩ := Option.map_eq_some_iff.1 (show (Queue.init num sz).map (Tso.start) = some s from hs)
    exact Nat.le_refl _
  insert := by
    intro s t x s' hs
    simp only [tsoQueue] at hs
    split at hs
    · cases hs; exact Nat.le_refl _
    · cases hs
  prod := by
    intro s g t k s' os _ hs
    simp only [tsoQueue] at hs
    split at hs
    · obtain ⟨s1, h1, hs⟩ := Exec.bind_eq_ok.1 hs
      cases hs
      rw [Tso.pstep_c (show s.pstep k = .ok s' from h1)]
      exact Nat.le_refl _
    · cases hs; exact Nat.le_refl _
  flush := by
    intro s g b i s' os _ hs
    simp only [tsoQueue] at hs
    obtain ⟨s1, h1, hs⟩ := Exec.bind_eq_ok.1 hs
    cases hs
    cases b
    · simp only [Bool.false_eq_true, if_false, Tso.step] at h1
      split at h1
      · cases h1; exact Nat.le_refl _
      · obtain ⟨q, h2, h1⟩ := Exec.bind_eq_ok.1 h1
        cases h1; exact Nat.le_refl _
    · simp only [if_true, Tso.step] at h1
      split at h1
      · cases h1; exact Nat.le_refl _
      · obtain ⟨q, h2, h1⟩ := Exec.bind_eq_ok.1 h1
        cases h1; exact Nat.le_refl _
  remove := by
    intro s s' hs
    simp only [tsoQueue] at hs
    split at hs
    · rename_i e
      cases hs
      simp only [e, CPc.left]; omega
    · cases hs
  cons := by
    intro s g k s' r h ht hs
    simp only [tsoQueue] at hs
    obtain ⟨s1, h1, hs⟩ := Exec.bind_eq_ok.1 hs
    cases hs
    have hc : s.c ≠ .idle := by
      have := h.taking
      rw [ht] at this
      simpa using this.symm
    rcases Tso.cstep_cl (sz := sz.toNat) (by rw [h.inv.hsz]) hc h1 with ⟨_, e1, e2⟩ | ⟨e, x, e3, e4, e5⟩
    · refine Or.inl ⟨?_, e2⟩
      rcases e1 with e1 | e1 <;> rw [e1] <;> simp [QEv.ret]
    · refine Or.inr ⟨?_, ?_⟩
      · rw [e3]; simp [e4]
      · simp only [e5, CPc.left]; exact Nat.le_refl _

/-! ## On ia64 -/

theorem Ia64.pstep_c {s s' : Ia64} {k : Nat} (h : s.pstep k = .ok s') : s'.c = s.c := by
  unfold Ia64.pstep at h
  split at h
  · cases h; rfl
  · cases h; rfl
  · simp only at h
    split at h <;> cases h <;> rfl
  · split at h <;> cases h <;> rfl
  · simp only at h
    split at h <;> cases h
    rfl
  · split at h <;> cases h <;> rfl

theorem Ia64.cstep_cl {s s' : Ia64} {k sz : Nat} (hsz : s.q.sz.toNat = sz) (hc : s.c ≠ .idle)
    (hpre : ∃ t, CMatch s.cbuf t s.c) (h : s.cstep k = .ok s') :
      ((s'.log = s.log ∨ s'.log = s.log ++ [.look]) ∧ (s'.c.left sz < s.c.left sz ∨ s' = s)) ∨
      (∃ e r, s'.log = s.log ++ [e] ∧ e.ret = some r ∧ s'.c = .idle) := by
  obtain ⟨t, hm⟩ := hpre
  unfold Ia64.cstep at h
  split at h
  · rename_i e; exact absurd e hc
  · rename_i e; cases h
    exact Or.inl ⟨Or.inr rfl, Or.inl (by simp only [e, CPc64.left]; omega)⟩
  · rename_i e
    rw [e] at hm
    obtain ⟨_, rfl, _⟩ := hm
    simp only [Option.getD_none] at h
    split at h <;> cases h
    · exact Or.inl ⟨Or.inl rfl, Or.inl (by simp only [e, CPc64.left, List.length_range, hsz]; omega)⟩
    · exact Or.inr ⟨_, _, rfl, rfl, rfl⟩
  · rename_i e
    split at h
    · cases h
      exact Or.inl ⟨Or.inl rfl, Or.inl (by simp only [e, CPc64.left, List.length_nil]; omega)⟩
    · cases h
      exact Or.inl ⟨Or.inl rfl, Or.inr rfl⟩
  · rename_i t todo e
    obtain ⟨⟨buf', todo'⟩, h1, h⟩ := Exec.bind_eq_ok.1 h
    cases h
    unfold Ia64.readByte at h1
    simp only at h1
    split at h1
    · cases h1
    · cases h1
      refine Or.inl ⟨Or.inl rfl, Or.inl ?_⟩
      simp only [e, CPc64.left, erase_choose_length, List.length_cons]; omega
  · rename_i e
    cases h
    exact Or.inr ⟨_, _, rfl, rfl, rfl⟩

/-- The same on ia64. -/
theorem ia64_cons_bounded {num sz : UInt32} :
    ia64Queue.ConsBounded num sz (Ia64R num sz) (sz.toNat + 8) (fun s => s.c.left sz.toNat) where
  create := by
    intro s hs
    obtain ⟨q, _, rfl⟩ := Option.map_eq_some_iff.1 (show (Queue.init num sz).map (Ia64.start true) = some s from hs)
    simp only [Ia64.start, CPc64.left]; omega
  insert := by
    intro s t x s' hs
    simp only [ia64Queue] at hs
    split at hs
    · cases hs; exact Nat.le_refl _
    · cases hs
  prod := by
    intro s g t k s' os _ hs
    simp only [ia64Queue] at hs
    split at hs
    · obtain ⟨s1, h1, hs⟩ := Exec.bind_eq_ok.1 hs
      cases hs
      rw [Ia64.pstep_c (show s.pstep k = .ok s' from h1)]
      exact Nat.le_refl _
    · cases hs; exact Nat.le_refl _
  flush := by
    intro s g b i s' os _ hs
    simp only [ia64Queue] at hs
    obtain ⟨s1, h1, hs⟩ := Exec.bind_eq_ok.1 hs
    cases hs
    cases b
    · simp only [Bool.false_eq_true, if_false, Ia64.step] at h1
      split at h1
      · cases h1; exact Nat.le_refl _
      · obtain ⟨q, h2, h1⟩ := Exec.bind_eq_ok.1 h1
        cases h1; exact Nat.le_refl _
    · simp only [if_true, Ia64.step] at h1
      split at h1
      · cases h1; exact Nat.le_refl _
      · obtain ⟨q, h2, h1⟩ := Exec.bind_eq_ok.1 h1
        cases h1; exact Nat.le_refl _
  remove := by
    intro s s' hs
    simp only [ia64Queue] at hs
    split at hs
    · rename_i e
      cases hs
      simp only [e, CPc64.left]; omega
    · cases hs
  cons := by
    intro s g k s' r h ht hs
    simp only [ia64Queue] at hs
    obtain ⟨s1, h1, hs⟩ := Exec.bind_eq_ok.1 hs
    cases hs
    have hc : s.c ≠ .idle := by
      have := h.taking
      rw [ht] at this
      simpa using this.symm
    obtain ⟨t, hr⟩ := h.rel
    rcases Ia64.cstep_cl (sz := sz.toNat) (by rw [h.sz]) hc ⟨_, hr.c⟩ h1 with ⟨e1, e2⟩ | ⟨e, x, e3, e4, e5⟩
    · refine Or.inl ⟨?_, e2⟩
      rcases e1 with e1 | e1 <;> rw [e1] <;> simp [QEv.ret]
    · refine Or.inr ⟨?_, ?_⟩
      · rw [e3]; simp [e4]
      · simp only [e5, CPc64.left]; omega

/-! ## The queue with a mutex -/

theorem Mt.access_cl {s s' : Mt} {k : Nat} (hr : (s.th 0).removing = true) (h : s.access 0 k = .ok s') :
    s'.log = s.log ∨ ∃ c r, s'.log = s.log ++ [c] ∧ c.ret = some r ∧ s'.th 0 = .idle := by
  unfold Mt.access at h
  split at h
  · cases h; exact Or.inl rfl
  · rename_i e; rw [e] at hr; cases hr
  · rename_i e; rw [e] at hr; cases hr
  · rename_i e; rw [e] at hr; cases hr
  · rename_i e; rw [e] at hr; cases hr
  · rename_i e; rw [e] at hr; cases hr
  · rename_i e; rw [e] at hr; cases hr
  · cases h
    unfold Mt.enter
    split
    · split <;> exact Or.inl rfl
    · exact Or.inl rfl
  · cases h; exact Or.inl rfl
  · simp only at h
    split at h <;> cases h <;> exact Or.inl rfl
  · cases h; exact Or.inl rfl
  · simp only at h
    split at h
    · cases h
    · cases h; exact Or.inl rfl
  · cases h
    exact Or.inr ⟨_, _, rfl, rfl, by simp [Mt.leave_th]⟩

/-- The same for the queue with a mutex. -/
theorem mutex_cons_bounded {num sz : UInt32} :
    mutexQueue.ConsBounded num sz (MtR num sz) (sz.toNat + 8) (Mt.cw sz.toNat) where
  create := by
    intro s hs
    obtain ⟨q, _, rfl⟩ := Option.map_eq_some_iff.1 (show (Queue.init num sz).map (Mt.start true) = some s from hs)
    simp only [Mt.cw, Mt.start, MtPc.cleft]; omega
  insert := by
    intro s t x s' hs
    simp only [mutexQueue] at hs
    split at hs
    · cases hs
      simp only [Mt.cw, Mt.goto]
      rw [if_neg (by omega)]
      exact Nat.le_refl _
    · cases hs
  prod := by
    intro s g t k s' os h hs
    simp only [mutexQueue] at hs
    obtain ⟨s1, h1, hs⟩ := Exec.bind_eq_ok.1 hs
    cases hs
    obtain ⟨e1, _⟩ := Mt.access_left (sz := sz.toNat) (by rw [h.inv.hsz]) (show s.access (t + 1) k = .ok s' from h1)
    simp only [Mt.cw]
    rw [e1 0 (by omega)]
    exact Nat.le_refl _
  flush := by
    intro s g b i s' os _ hs
    cases hs
    exact Nat.le_refl _
  remove := by
    intro s s' hs
    simp only [mutexQueue] at hs
    split at hs
    · rename_i e
      cases hs
      simp only [Mt.cw, Mt.goto, if_true, e, MtPc.cleft]; omega
    · cases hs
  cons := by
    intro s g k s' r h ht hs
    simp only [mutexQueue] at hs
    obtain ⟨s1, h1, hs⟩ := Exec.bind_eq_ok.1 hs
    cases hs
    have h1' : s.access 0 k = .ok s' := h1
    obtain ⟨_, _, _, e4⟩ := Mt.access_left (sz := sz.toNat) (by rw [h.inv.hsz]) h1'
    have hrem : (s.th 0).removing = true := by rw [← h.taking, ht]
    rcases Mt.access_cl hrem h1' with e | ⟨c, x, e, e5, e6⟩
    · refine Or.inl ⟨by rw [e]; simp, ?_⟩
      rcases e4 hrem with e4 | ⟨e4, _⟩ | ⟨c, x, e4, _⟩
      · exact Or.inl e4
      · exact Or.inr e4
      · rw [e] at e4
        exact absurd (congrArg List.length e4) (by simp)
    · refine Or.inr ⟨by rw [e]; simp [e5], ?_⟩
      simp only [Mt.cw, e6, MtPc.cleft]; omega

end Fstrm
