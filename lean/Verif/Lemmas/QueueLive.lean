import Verif.Lemmas.QueueImpl

/-!
# Calls on the queues end

How much work is left in the calls in progress, for both implementations of the queue.
-/

set_option autoImplicit false

namespace Fstrm

open Spec (QEv Call)

/-- Some thread other than the consumer, or a store buffer, can do something. -/
def QImpl.Helped (Q : QImpl) (s : Q.S) : Prop :=
  (∃ t, ∀ k s' os, Q.prod s t k = .ok (s', os) → (s', os) ≠ (s, [])) ∨
  (∃ b, ∀ s' os, Q.flush s b 0 = .ok (s', os) → (s', os) ≠ (s, []))

/-- `pw` is the work left in insert calls, of threads below `B` only, `cw` the work left in a remove
call. -/
structure QImpl.Live (Q : QImpl) (R : Q.S → QGhost → Prop) (B : Nat) (pw cw : Q.S → Nat) : Prop where
  prod : ∀ s g t k s' os, R s g → (∀ t, B ≤ t → g.calling t = false) → Q.prod s t k = .ok (s', os) →
    (s' = s ∧ os = []) ∨ pw s' < pw s
  flush : ∀ s g b i s' os, R s g → Q.flush s b i = .ok (s', os) →
    (s' = s ∧ os = []) ∨ pw s' < pw s ∨ (os = [] ∧ pw s' = pw s ∧ cw s' < cw s)
  remove : ∀ s g s', R s g → Q.remove s = some s' → pw s' = pw s ∧ cw s' < cw s
  cons : ∀ s g k s' r, R s g → g.taking = true → Q.cons s k = .ok (s', r) →
    pw s' = pw s ∧ (r = none → cw s' < cw s ∨ (s' = s ∧ Q.Helped s))
  busy : ∀ s g, R s g → g.taking = false → (Q.quiet s = false ∨ ∃ t, g.calling t = true) → Q.Helped s

/-! ## The lock-free queue -/

/-- Accesses left in an insert call, those that fill the store buffer counted twice. -/
def PPc.left (sz : Nat) : PPc → Nat
  | .idle => 0
  | .loadHead _ => 2 * sz + 5
  | .loadTail _ _ => 2 * sz + 4
  | .copy _ _ _ todo => 2 * todo.length + 3

/-- Accesses left in a remove call. -/
def CPc.left (sz : Nat) : CPc → Nat
  | .idle => sz + 8
  | .loadHead => sz + 7
  | .loadTail _ => sz + 6
  | .copy _ _ _ todo => todo.length + 3
  | .store _ _ _ => 2

/-- Work left for the producer. -/
def Tso.pw (sz : Nat) (s : Tso) : Nat := s.p.left sz + s.pbuf.length

/-- Work left for the consumer. -/
def Tso.cw (sz : Nat) (s : Tso) : Nat := s.c.left sz + s.cbuf.length

theorem erase_choose_length (t : Nat) (todo : List Nat) (i : Nat) :
    ((t :: todo).erase ((t :: todo)[i % (todo.length + 1)]?.getD t)).length = todo.length := by
  rw [List.length_erase_of_mem (choose_mem t todo i)]
  rfl

theorem Tso.pstep_left {s s' : Tso} {k sz : Nat} (hsz : s.q.sz.toNat = sz) (hp : s.p ≠ .idle)
    (h : s.pstep k = .ok s') : s'.pw sz < s.pw sz := by
  unfold Tso.pstep at h
  split at h
  · rename_i e; exact absurd e hp
  · rename_i e; cases h; simp only [pw, e, PPc.left]; omega
  · rename_i e
    simp only at h
    split at h <;> cases h <;> simp only [pw, e, PPc.left, List.length_range, hsz] <;> omega
  · rename_i e
    cases h; simp only [pw, e, PPc.left, List.length_append, List.length_cons, List.length_nil]; omega
  · rename_i t todo e
    simp only at h
    split at h
    · cases h
    · cases h
      simp only [pw, e, PPc.left, List.length_append, erase_choose_length, List.length_cons, List.length_nil]
      omega

theorem Tso.cstep_left {s s' : Tso} {k sz : Nat} (hsz : s.q.sz.toNat = sz) (hc : s.c ≠ .idle)
    (h : s.cstep k = .ok s') : s'.p = s.p ∧ s'.pbuf = s.pbuf ∧
      (s'.cw sz < s.cw sz ∨ (s' = s ∧ s.cbuf ≠ []) ∨ ∃ e r, s'.log = s.log ++ [e] ∧ e.ret = some r) := by
  unfold Tso.cstep at h
  split at h
  · rename_i e; exact absurd e hc
  · rename_i e; cases h
    exact ⟨rfl, rfl, Or.inl (by simp only [cw, e, CPc.left]; omega)⟩
  · rename_i e
    simp only at h
    split at h <;> cases h
    · exact ⟨rfl, rfl, Or.inl (by simp only [cw, e, CPc.left, List.length_range, hsz]; omega)⟩
    · exact ⟨rfl, rfl, Or.inr (Or.inr ⟨_, _, rfl, rfl⟩)⟩
  · rename_i e
    split at h
    · cases h
      exact ⟨rfl, rfl, Or.inl (by simp only [cw, e, CPc.left, List.length_nil]; omega)⟩
    · rename_i hb
      cases h
      exact ⟨rfl, rfl, Or.inr (Or.inl ⟨rfl, hb⟩)⟩
  · rename_i t todo e
    simp only at h
    split at h
    · cases h
    · cases h
      refine ⟨rfl, rfl, Or.inl ?_⟩
      simp only [cw, e, CPc.left, erase_choose_length, List.length_cons]; omega
  · rename_i e
    cases h
    exact ⟨rfl, rfl, Or.inr (Or.inr ⟨_, _, rfl, rfl⟩)⟩

theorem tso_flush_helped {s : Tso} {b : Bool} (hb : (if b then s.pbuf else s.cbuf) ≠ []) :
    ∀ s' os, tsoQueue.flush s b 0 = .ok (s', os) → (s', os) ≠ (s, []) := by
  intro s' os h he
  cases he
  simp only [tsoQueue] at h
  obtain ⟨s1, h1, h⟩ := Exec.bind_eq_ok.1 h
  simp only [Except.ok.injEq, Prod.mk.injEq] at h
  obtain ⟨rfl, _⟩ := h
  cases b
  · simp only [Bool.false_eq_true, if_false, Tso.step] at h1 hb
    split at h1
    · rename_i e; exact hb e
    · rename_i st rest e
      obtain ⟨q, h2, h1⟩ := Exec.bind_eq_ok.1 h1
      have := congrArg (fun x => (Except.toOption x).map fun s : Tso => s.cbuf.length) h1
      simp [Except.toOption, e] at this
  · simp only [if_true, Tso.step] at h1 hb
    split at h1
    · rename_i e; exact hb e
    · rename_i st rest e
      obtain ⟨q, h2, h1⟩ := Exec.bind_eq_ok.1 h1
      have := congrArg (fun x => (Except.toOption x).map fun s : Tso => s.pbuf.length) h1
      simp [Except.toOption, e] at this

/-- Calls on the lock-free queue end. -/
theorem tso_live {num sz : UInt32} (B : Nat) :
    tsoQueue.Live (TsoR num sz) B (Tso.pw sz.toNat) (Tso.cw sz.toNat) where
  prod := by
    intro s g t k s' os h _ hs
    simp only [tsoQueue] at hs
    split at hs
    · obtain ⟨s1, h1, hs⟩ := Exec.bind_eq_ok.1 hs
      cases hs
      simp only [Tso.step] at h1
      by_cases hp : s.p = .idle
      · simp only [Tso.pstep, hp] at h1
        cases h1
        exact Or.inl ⟨rfl, by simp⟩
      · exact Or.inr (Tso.pstep_left (by rw [h.inv.hsz]) hp h1)
    · cases hs; exact Or.inl ⟨rfl, rfl⟩
  flush := by
    intro s g b i s' os h hs
    simp only [tsoQueue] at hs
    obtain ⟨s1, h1, hs⟩ := Exec.bind_eq_ok.1 hs
    cases hs
    cases b
    · simp only [Bool.false_eq_true, if_false, Tso.step] at h1
      split at h1
      · cases h1; exact Or.inl ⟨rfl, by simp⟩
      · rename_i st rest e
        obtain ⟨q, h2, h1⟩ := Exec.bind_eq_ok.1 h1
        cases h1
        have hc := h.inv.cbuf
        rw [e] at hc
        refine Or.inr (Or.inr ⟨?_, rfl, ?_⟩)
        · cases st with
          | tail v => simp [Tso.commitEv, Spec.QEv.out]
          | head v => simp [TailBuf] at hc
          | data o v => simp [TailBuf] at hc
        · simp only [Tso.cw, e, List.length_cons]; omega
    · simp only [if_true, Tso.step] at h1
      split at h1
      · cases h1; exact Or.inl ⟨rfl, by simp⟩
      · rename_i st rest e
        obtain ⟨q, h2, h1⟩ := Exec.bind_eq_ok.1 h1
        cases h1
        exact Or.inr (Or.inl (by simp only [Tso.pw, e, List.length_cons]; omega))
  remove := by
    intro s g s' h hs
    simp only [tsoQueue] at hs
    split at hs
    · rename_i e
      cases hs
      exact ⟨rfl, by simp only [Tso.cw, e, CPc.left]; omega⟩
    · cases hs
  cons := by
    intro s g k s' r h ht hs
    simp only [tsoQueue] at hs
    obtain ⟨s1, h1, hs⟩ := Exec.bind_eq_ok.1 hs
    cases hs
    have hc : s.c ≠ .idle := by
      have := h.taking
      rw [ht] at this
      simpa using this.symm
    obtain ⟨e1, e2, e3⟩ := Tso.cstep_left (by rw [h.inv.hsz]) hc h1
    refine ⟨by simp only [Tso.pw, e1, e2], fun hr => ?_⟩
    rcases e3 with e3 | ⟨e3, e4⟩ | ⟨e, x, e3, e4⟩
    · exact Or.inl e3
    · exact Or.inr ⟨e3, Or.inr ⟨false, tso_flush_helped (by simpa using e4)⟩⟩
    · rw [e3] at hr
      simp [e4] at hr
  busy := by
    intro s g h ht hb
    have hc : s.c = .idle := by
      have := h.taking
      rw [ht] at this
      simpa using this.symm
    by_cases h1 : s.pbuf = []
    · by_cases h2 : s.cbuf = []
      · rcases hb with hb | ⟨t, hb⟩
        · simp [tsoQueue, h1, h2, hc] at hb
        · have ht0 : t = 0 := by
            by_cases h0 : t = 0
            · exact h0
            · rw [(h.others t h0).2] at hb; cases hb
          subst ht0
          rw [h.calling] at hb
          have hp : s.p ≠ .idle := by
            intro e; rw [e] at hb; cases hb
          refine Or.inl ⟨0, fun k s' os hs he => ?_⟩
          cases he
          simp only [tsoQueue, if_true] at hs
          obtain ⟨s1, h3, hs⟩ := Exec.bind_eq_ok.1 hs
          have := Tso.pstep_left (by rw [h.inv.hsz]) hp h3
          have hs : s1 = s := congrArg Prod.fst (Except.ok.inj hs)
          subst hs
          exact absurd this (Nat.lt_irrefl _)
      · exact Or.inr ⟨false, tso_flush_helped (by simpa using h2)⟩
    · exact Or.inr ⟨true, tso_flush_helped (by simpa using h1)⟩

/-! ## The queue with a mutex -/

/-- Accesses left in an insert call. -/
def MtPc.pleft (sz : Nat) : MtPc → Nat
  | .insEnter _ => sz + 5
  | .insHead _ => sz + 4
  | .insTail _ _ => sz + 3
  | .insCopy _ _ _ todo => todo.length + 2
  | .insLeave _ _ _ => 1
  | _ => 0

/-- Accesses left in a remove call. -/
def MtPc.cleft (sz : Nat) : MtPc → Nat
  | .remEnter => sz + 5
  | .remHead => sz + 4
  | .remTail _ => sz + 3
  | .remCopy _ _ _ todo => todo.length + 2
  | .remLeave _ _ => 1
  | _ => sz + 6

/-- Work left for the producers. -/
def Mt.pw (sz B : Nat) (s : Mt) : Nat := ((List.range B).map fun t => (s.th (t + 1)).pleft sz).sum

/-- Work left for the consumer. -/
def Mt.cw (sz : Nat) (s : Mt) : Nat := (s.th 0).cleft sz

theorem sum_range_congr {f g : Nat → Nat} {B : Nat} (h : ∀ t, t < B → f t = g t) :
    ((List.range B).map f).sum = ((List.range B).map g).sum := by
  congr 1
  exact List.map_congr_left fun t ht => h t (List.mem_range.1 ht)

theorem sum_range_lt {f g : Nat → Nat} {B t0 : Nat} (h0 : t0 < B) (hlt : f t0 < g t0)
    (h : ∀ t, t ≠ t0 → f t = g t) : ((List.range B).map f).sum < ((List.range B).map g).sum := by
  induction B with
  | zero => omega
  | succ B ih =>
    simp only [List.range_succ, List.map_append, List.sum_append, List.map_cons, List.map_nil, List.sum_cons,
      List.sum_nil]
    by_cases hb : t0 = B
    · subst hb
      rw [sum_range_congr fun t ht => h t (by omega)]
      omega
    · have := ih (by omega)
      rw [h B (fun e => hb e.symm)]
      omega

/-- What an access of a thread in a call does to it. -/
theorem Mt.access_left {s s' : Mt} {t k sz : Nat} (hsz : s.q.sz.toNat = sz) (h : s.access t k = .ok s') :
    (∀ u, u ≠ t → s'.th u = s.th u) ∧
    (s.th t = .idle → s' = s) ∧
    ((s.th t).item.isSome = true →
      (s'.th t).pleft sz < (s.th t).pleft sz ∨
      (s' = s ∧ s.locked = true ∧ (s.th t).inside = false ∧ s.owner ≠ none)) ∧
    ((s.th t).removing = true →
      (s'.th t).cleft sz < (s.th t).cleft sz ∨
      (s' = s ∧ s.locked = true ∧ (s.th t).inside = false ∧ s.owner ≠ none) ∨
      ∃ c r, s'.log = s.log ++ [c] ∧ c.ret = some r) := by
  have enter : ∀ pc, (s.enter t pc = s.goto t pc ∨ s.enter t pc = { s.goto t pc with owner := some t } ∨
      (s.enter t pc = s ∧ s.locked = true ∧ s.owner ≠ none)) := by
    intro pc
    unfold Mt.enter
    split
    · rename_i hl
      split
      · exact Or.inr (Or.inl rfl)
      · rename_i e; exact Or.inr (Or.inr ⟨rfl, hl, by rw [e]; simp⟩)
    · exact Or.inl rfl
  have oth : ∀ (pc : MtPc) (u : Nat), u ≠ t → (s.goto t pc).th u = s.th u := fun pc u hu => if_neg hu
  have self : ∀ (pc : MtPc), (s.goto t pc).th t = pc := fun pc => if_pos rfl
  unfold Mt.access at h
  split at h
  · rename_i e
    cases h
    exact ⟨fun _ _ => rfl, fun _ => rfl, fun hi => (by rw [e] at hi; cases hi), fun hi => (by rw [e] at hi; cases hi)⟩
  · rename_i item e
    cases h
    rw [e]
    rcases enter (.insHead item) with h | h | ⟨h, h1, h2⟩
    · rw [h]
      exact ⟨oth _, nofun, fun _ => Or.inl (by rw [self]; simp only [MtPc.pleft]; omega), nofun⟩
    · rw [h]
      exact ⟨oth _, nofun, fun _ => Or.inl (by simp only [self]; simp only [MtPc.pleft]; omega), nofun⟩
    · rw [h]
      exact ⟨fun _ _ => rfl, nofun, fun _ => Or.inr ⟨rfl, h1, rfl, h2⟩, nofun⟩
  · rename_i e
    cases h
    rw [e]
    exact ⟨oth _, nofun, fun _ => Or.inl (by rw [self]; simp only [MtPc.pleft]; omega), nofun⟩
  · rename_i e
    simp only at h
    rw [e]
    split at h <;> cases h
    · exact ⟨oth _, nofun, fun _ => Or.inl (by rw [self]; simp only [MtPc.pleft, List.length_range, hsz]; omega), nofun⟩
    · exact ⟨oth _, nofun, fun _ => Or.inl (by rw [self]; simp only [MtPc.pleft]; omega), nofun⟩
  · rename_i e
    cases h
    rw [e]
    exact ⟨oth _, nofun, fun _ => Or.inl (by simp only [self]; simp only [MtPc.pleft]; omega), nofun⟩
  · rename_i k0 todo e
    simp only at h
    rw [e]
    split at h
    · cases h
    · split at h
      · cases h
        refine ⟨oth _, nofun, fun _ => Or.inl ?_, nofun⟩
        simp only [self]
        simp only [MtPc.pleft, erase_choose_length, List.length_cons]; omega
      · cases h
  · rename_i e
    cases h
    rw [e]
    refine ⟨oth _, nofun, fun _ => Or.inl ?_, nofun⟩
    rw [Mt.leave_th, if_pos rfl]; simp only [MtPc.pleft]; omega
  · rename_i e
    cases h
    rw [e]
    rcases enter .remHead with h | h | ⟨h, h1, h2⟩
    · rw [h]
      exact ⟨oth _, nofun, nofun, fun _ => Or.inl (by rw [self]; simp only [MtPc.cleft]; omega)⟩
    · rw [h]
      exact ⟨oth _, nofun, nofun, fun _ => Or.inl (by simp only [self]; simp only [MtPc.cleft]; omega)⟩
    · rw [h]
      exact ⟨fun _ _ => rfl, nofun, nofun, fun _ => Or.inr (Or.inl ⟨rfl, h1, rfl, h2⟩)⟩
  · rename_i e
    cases h
    rw [e]
    exact ⟨oth _, nofun, nofun, fun _ => Or.inl (by rw [self]; simp only [MtPc.cleft]; omega)⟩
  · rename_i e
    simp only at h
    rw [e]
    split at h <;> cases h
    · exact ⟨oth _, nofun, nofun, fun _ => Or.inl (by rw [self]; simp only [MtPc.cleft, List.length_range, hsz]; omega)⟩
    · exact ⟨oth _, nofun, nofun, fun _ => Or.inl (by rw [self]; simp only [MtPc.cleft]; omega)⟩
  · rename_i e
    cases h
    rw [e]
    exact ⟨oth _, nofun, nofun, fun _ => Or.inl (by simp only [self]; simp only [MtPc.cleft]; omega)⟩
  · rename_i k0 todo e
    simp only at h
    rw [e]
    split at h
    · cases h
    · cases h
      refine ⟨oth _, nofun, nofun, fun _ => Or.inl ?_⟩
      rw [self]
      simp only [MtPc.cleft, erase_choose_length, List.length_cons]; omega
  · rename_i e
    cases h
    rw [e]
    exact ⟨oth _, nofun, nofun, fun _ => Or.inr (Or.inr ⟨_, _, rfl, rfl⟩)⟩

/-- While the mutex is held by a producer, that producer can go on. -/
theorem MtR.helped {num sz : UInt32} {s : Mt} {g : QGhost} (h : MtR num sz s g)
    (ho : s.owner ≠ none) (h0 : (s.th 0).inside = false) : mutexQueue.Helped s := by
  cases hown : s.owner with
  | none => exact absurd hown ho
  | some u =>
    have hcr := h.inv.crit u hown
    have hin : (s.th u).inside = true := by
      revert hcr
      cases s.th u <;> simp [Crit, MtPc.inside]
    cases u with
    | zero => rw [hin] at h0; cases h0
    | succ t =>
      have hr := h.roles t
      have hit : (s.th (t + 1)).item.isSome = true := by
        revert hr hin
        cases s.th (t + 1) <;> simp [MtPc.removing, MtPc.inside, MtPc.item]
      refine Or.inl ⟨t, fun k s' os hs he => ?_⟩
      cases he
      simp only [mutexQueue] at hs
      obtain ⟨s1, h1, hs⟩ := Exec.bind_eq_ok.1 hs
      obtain ⟨_, _, e3, _⟩ := Mt.access_left (sz := sz.toNat) (by rw [h.inv.hsz]) (show s.access (t + 1) k = .ok s1 from h1)
      simp only [Except.ok.injEq, Prod.mk.injEq] at hs
      obtain ⟨rfl, _⟩ := hs
      rcases e3 hit with e | ⟨_, _, e, _⟩
      · exact absurd e (Nat.lt_irrefl _)
      · rw [hin] at e; cases e

/-- Calls on the queue with a mutex end. -/
theorem mutex_live {num sz : UInt32} (B : Nat) :
    mutexQueue.Live (MtR num sz) B (Mt.pw sz.toNat B) (Mt.cw sz.toNat) where
  prod := by
    intro s g t k s' os h hB hs
    simp only [mutexQueue] at hs
    obtain ⟨s1, h1, hs⟩ := Exec.bind_eq_ok.1 hs
    cases hs
    obtain ⟨e1, e2, e3, _⟩ := Mt.access_left (sz := sz.toNat) (by rw [h.inv.hsz]) (show s.access (t + 1) k = .ok s' from h1)
    cases hc : (s.th (t + 1)).item.isSome with
    | false =>
      have hid : s.th (t + 1) = .idle := by
        have hr := h.roles t
        revert hr hc
        cases s.th (t + 1) <;> simp [MtPc.removing, MtPc.item]
      have := e2 hid
      subst this
      exact Or.inl ⟨rfl, by simp⟩
    | true =>
      rcases e3 hc with e | ⟨e, _⟩
      · refine Or.inr (sum_range_lt (t0 := t) ?_ e fun u hu => by rw [e1 (u + 1) (by omega)])
        rcases Nat.lt_or_ge t B with hl | hl
        · exact hl
        · have := hB t hl
          rw [h.calling, hc] at this; cases this
      · subst e
        exact Or.inl ⟨rfl, by simp⟩
  flush := by
    intro s g b i s' os h hs
    cases hs
    exact Or.inl ⟨rfl, rfl⟩
  remove := by
    intro s g s' h hs
    simp only [mutexQueue] at hs
    split at hs
    · rename_i e
      cases hs
      refine ⟨sum_range_congr fun t _ => ?_, ?_⟩
      · simp only [Mt.goto]; rw [if_neg (by omega)]
      · simp only [Mt.cw, Mt.goto, if_true, e, MtPc.cleft]; omega
    · cases hs
  cons := by
    intro s g k s' r h ht hs
    simp only [mutexQueue] at hs
    obtain ⟨s1, h1, hs⟩ := Exec.bind_eq_ok.1 hs
    cases hs
    obtain ⟨e1, _, _, e4⟩ := Mt.access_left (sz := sz.toNat) (by rw [h.inv.hsz]) (show s.access 0 k = .ok s' from h1)
    refine ⟨sum_range_congr fun t _ => by rw [e1 (t + 1) (by omega)], fun hr => ?_⟩
    rcases e4 (by rw [← h.taking, ht]) with e | ⟨e, _, e5, e6⟩ | ⟨c, x, e, e5⟩
    · exact Or.inl e
    · exact Or.inr ⟨e, h.helped e6 e5⟩
    · rw [e] at hr
      simp [e5] at hr
  busy := by
    intro s g h ht hb
    have h0 : s.th 0 = .idle := by
      have h1 := h.taking
      have h2 := h.role
      rw [ht] at h1
      revert h1 h2
      cases s.th 0 <;> simp [MtPc.removing, MtPc.item]
    by_cases ho : s.owner = none
    · rcases hb with hb | ⟨t, hb⟩
      · simp [mutexQueue, ho, h0] at hb
      · rw [h.calling] at hb
        refine Or.inl ⟨t, fun k s' os hs he => ?_⟩
        cases he
        simp only [mutexQueue] at hs
        obtain ⟨s1, h1, hs⟩ := Exec.bind_eq_ok.1 hs
        obtain ⟨_, _, e3, _⟩ := Mt.access_left (sz := sz.toNat) (by rw [h.inv.hsz]) (show s.access (t + 1) k = .ok s1 from h1)
        have hs : s1 = s := congrArg Prod.fst (Except.ok.inj hs)
        subst hs
        rcases e3 hb with e | ⟨_, _, _, e⟩
        · exact absurd e (Nat.lt_irrefl _)
        · exact e ho
    · exact h.helped ho (by rw [h0]; rfl)

end Fstrm
