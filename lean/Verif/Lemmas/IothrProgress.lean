import Verif.Lemmas.IothrFair
import Verif.Spec.IothrProgress

/-!
# Payloads leave their queue
-/

set_option autoImplicit false

namespace Fstrm.Iothr

variable {σ : Type}

theorem step_pc {s s' : Iothr σ} {a : IoAct} (h : s.step a = .ok s') (ha : ∀ now wake, a ≠ .io now wake) :
    s'.pc = s.pc := by
  cases a with
  | submit t q data f =>
    simp only [step, submitCheck] at h
    split at h
    · cases h
    · split at h
      · cases h; rfl
      · split at h
        · cases h; rfl
        · split at h
          · cases h; rfl
          · split at h <;> cases h <;> rfl
  | insert t =>
    simp only [step, submitInsert] at h
    split at h
    · cases h; rfl
    · split at h
      · cases h
      · split at h
        · cases h; rfl
        · rename_i e _ _ _ q _
          split at h
          · split at h
            · cases h
              obtain ⟨wk, hwk⟩ := signal_eq (emit (emit { s with
                pending := fun t' => if t' = t then none else s.pending t'
                queues := s.queues.set e.queue (q ++ [e]) } (.submitted e)) .signal)
              rw [hwk]; rfl
            · cases h; rfl
          · cases h; rfl
  | getQueue =>
    simp only [step, getQueue] at h
    split at h
    · cases h
    · split at h <;> cases h <;> rfl
  | io now wake => exact absurd rfl (ha now wake)
  | shutdown =>
    simp only [step, shutdown] at h
    split at h
    · cases h; rfl
    · cases h
      obtain ⟨wk, hwk⟩ := signal_eq ({ s with shutting := true }.emit .shutdown)
      rw [hwk]; rfl
  | finish =>
    simp only [step, finish] at h
    split at h
    · obtain ⟨⟨r, rdwr⟩, h1, h⟩ := Exec.bind_eq_ok.1 h
      cases h
      rw [freeAll_eq]; rfl
    · cases h; rfl

/-- Steps of the I/O thread before it looks at queue `q`, if it waits whenever it can. -/
def dist (n q : Nat) : IoPc → Nat
  | .start => q + 2
  | .top => q + 1
  | .work i _ => if i ≤ q then q - i else (n - i) + 3 + q
  | .drain i _ => if i ≤ q then q - i else (n - i) + 3 + q
  | .sleep _ => q + 2
  | .exited => 0

theorem dist_le (n q : Nat) (pc : IoPc) (h : q < n) : dist n q pc ≤ n + 2 := by
  unfold dist
  split <;> (try split) <;> omega

/-- A step of the I/O thread brings an entry nearer to being taken, unless it is a step of waiting. -/
theorem ioStep_nearer {s s' : Iothr σ} {now : Nat} {wake : Wake} (h : s.ioStep now wake = .ok s')
    (hG : InvG s) (hs : s.shutting = false) {e : Entry} {q : Nat} (hq : q < s.opt.numInputQueues)
    {l1 l2 : List Entry} (hw : s.waiting q = l1 ++ e :: l2) :
    ((∃ d, s.pc = .sleep d) ∧ s' = s) ∨ (l1 = [] ∧ s'.waiting q = l2) ∨
    ∃ l1', s'.waiting q = l1' ++ e :: l2 ∧
      l1'.length * (s.opt.numInputQueues + 3) + dist s.opt.numInputQueues q s'.pc <
        l1.length * (s.opt.numInputQueues + 3) + dist s.opt.numInputQueues q s.pc := by
  have same : s'.queues = s.queues →
      dist s.opt.numInputQueues q s'.pc < dist s.opt.numInputQueues q s.pc →
      ∃ l1', s'.waiting q = l1' ++ e :: l2 ∧
      l1'.length * (s.opt.numInputQueues + 3) + dist s.opt.numInputQueues q s'.pc <
        l1.length * (s.opt.numInputQueues + 3) + dist s.opt.numInputQueues q s.pc := by
    intro h1 h2
    refine ⟨l1, ?_, by omega⟩
    unfold waiting at hw ⊢
    rw [h1, hw]
  unfold ioStep at h
  split at h
  · rename_i hp
    obtain ⟨s1, h1, h⟩ := Exec.bind_eq_ok.1 h
    cases h
    obtain ⟨a, b, c, d⟩ := maybeOpen_eff h1
    exact Or.inr (Or.inr (same a (by rw [hp]; simp [dist])))
  · rename_i hp
    split at h
    · rename_i h'; rw [hs] at h'; cases h'
    · obtain ⟨s1, h1, h⟩ := Exec.bind_eq_ok.1 h
      cases h
      obtain ⟨a, b, c, d⟩ := maybeOpen_eff h1
      exact Or.inr (Or.inr (same a (by rw [hp]; simp [dist])))
  · rename_i i total hp
    split at h
    · rename_i hi
      obtain ⟨⟨n, s1⟩, h1, h⟩ := Exec.bind_eq_ok.1 h
      cases h
      rcases processQueue_eff h1 with ⟨rfl, hw'⟩ | ⟨x, rest, a, b, c, d⟩
      · have hiq : i ≠ q := by intro h; rw [h, hw] at hw'; simp at hw'
        refine Or.inr (Or.inr (same rfl ?_))
        rw [hp]; simp only [dist]
        split <;> split <;> omega
      · by_cases hiq : i = q
        · subst hiq
          have hwe := waiting_set (s' := s1) a b i
          rw [if_pos rfl] at hwe
          have hx : s.waiting i = x :: rest := by unfold waiting; rw [a]; rfl
          rw [hx] at hw
          cases l1 with
          | nil =>
            simp only [List.nil_append, List.cons.injEq] at hw
            exact Or.inr (Or.inl ⟨rfl, hwe.trans hw.2⟩)
          | cons y l1 =>
            simp only [List.cons_append, List.cons.injEq] at hw
            refine Or.inr (Or.inr ⟨l1, hwe.trans hw.2, ?_⟩)
            rw [hp]
            simp only [List.length_cons, Nat.add_mul, Nat.one_mul, dist]
            split <;> split <;> omega
        · have hwe := waiting_set (s' := s1) a b q
          rw [if_neg hiq] at hwe
          refine Or.inr (Or.inr ⟨l1, hwe.trans hw, ?_⟩)
          rw [hp]; simp only [dist]
          split <;> split <;> omega
    · rename_i hi
      split at h
      · cases h
        refine Or.inr (Or.inr (same rfl ?_))
        rw [hp]; simp only [dist]
        split <;> omega
      · cases h
        refine Or.inr (Or.inr (same rfl ?_))
        rw [hp]; simp only [dist]
        split <;> omega
  · rename_i i total hp
    have := hG.drain i total hp
    rw [hs] at this; cases this
  · rename_i d hp
    split at h
    · split at h
      · obtain ⟨s1, h1, h⟩ := Exec.bind_eq_ok.1 h
        cases h
        obtain ⟨_, _, f3, _⟩ := flush_frame h1
        exact Or.inr (Or.inr (same f3 (by rw [hp]; simp [dist])))
      · cases h; exact Or.inl ⟨⟨d, hp⟩, rfl⟩
    · split at h
      · cases h; exact Or.inr (Or.inr (same rfl (by rw [hp]; simp [dist])))
      · cases h; exact Or.inl ⟨⟨d, hp⟩, rfl⟩
    · cases h; exact Or.inr (Or.inr (same rfl (by rw [hp]; simp [dist])))
  · rename_i hp
    have := (hG.exited hp).1
    rw [hs] at this; cases this

/-- Steps of other threads leave an entry where it is. -/
theorem step_waiting {s s' : Iothr σ} {a : IoAct} (h : s.step a = .ok s')
    (ha : ∀ now wake, a ≠ .io now wake) (hs : s'.shutting = false) {e : Entry} {q : Nat}
    {l1 l2 : List Entry} (hw : s.waiting q = l1 ++ e :: l2) :
    ∃ l2', s'.waiting q = l1 ++ e :: (l2 ++ l2') ∧
      (onQueue q (submits s'.log) = onQueue q (submits s.log) → l2' = []) := by
  have same : s'.queues = s.queues → ∃ l2', s'.waiting q = l1 ++ e :: (l2 ++ l2') ∧
      (onQueue q (submits s'.log) = onQueue q (submits s.log) → l2' = []) := by
    intro h1
    refine ⟨[], ?_, fun _ => rfl⟩
    unfold waiting at hw ⊢
    rw [h1, hw]; simp
  cases a with
  | submit t q data f =>
    simp only [step, submitCheck] at h
    split at h
    · cases h
    · split at h
      · cases h; exact same rfl
      · split at h
        · cases h; exact same rfl
        · split at h
          · cases h; exact same rfl
          · split at h <;> cases h <;> exact same rfl
  | insert t =>
    rcases step_eff h with ⟨h1, _⟩ | ⟨e', q', sig, h1, h2, h3, h4, h5, _⟩ | ⟨x, rest, _, _, _, h4, _⟩ | ⟨h1, _⟩
    · exact same h1
    · have hwe := waiting_set h1 h3 q
      by_cases hq : e'.queue = q
      · rw [if_pos hq] at hwe
        have : s.waiting q = q' := by unfold waiting; rw [← hq, h1]; rfl
        refine ⟨[e'], by rw [hwe, ← this, hw]; simp, fun h => ?_⟩
        rw [h4, submits_append] at h
        simp only [submits, h5] at h
        rw [onQueue_append, onQueue_single, if_pos hq] at h
        exact absurd (congrArg List.length h) (by simp)
      · rw [if_neg hq] at hwe
        exact ⟨[], by rw [hwe, hw]; simp, fun _ => rfl⟩
    · have := step_pc h ha
      rw [this] at h4; omega
    · -- destroyed queues are not what an insertion leaves
      simp only [step, submitInsert] at h
      split at h
      · cases h; exact same rfl
      · split at h
        · cases h
        · split at h
          · cases h; exact same rfl
          · rename_i e' _ _ _ q' _
            exfalso
            have hcase : ∃ i, s'.queues = s.queues.set i (q' ++ [e']) ∨ s'.queues = s.queues := by
              split at h
              · split at h
                · cases h
                  obtain ⟨wk, hwk⟩ := signal_eq (emit (emit { s with
                    pending := fun t' => if t' = t then none else s.pending t'
                    queues := s.queues.set e'.queue (q' ++ [e']) } (.submitted e')) .signal)
                  rw [hwk]
                  exact ⟨e'.queue, Or.inl rfl⟩
                · cases h; exact ⟨e'.queue, Or.inl rfl⟩
              · cases h; exact ⟨0, Or.inr rfl⟩
            obtain ⟨i, hc | hc⟩ := hcase
            · have hlen : q < s.queues.length := by
                cases hx : s.queues[q]? with
                | none => unfold waiting at hw; rw [hx] at hw; simp at hw
                | some l => exact (List.getElem?_eq_some_iff.1 hx).1
              have hn := h1 q
              unfold waiting at hn hw
              rw [hc, List.getElem?_set] at hn
              split at hn
              · rename_i hi
                subst hi
                simp [hlen] at hn
              · rw [hn] at hw; simp at hw
            · have := h1 q
              unfold waiting at this hw
              rw [hc, hw] at this
              simp at this
  | getQueue =>
    simp only [step, getQueue] at h
    split at h
    · cases h
    · split at h <;> cases h <;> exact same rfl
  | io now wake => exact absurd rfl (ha now wake)
  | shutdown =>
    simp only [step, shutdown] at h
    split at h
    · cases h; exact same rfl
    · cases h
      obtain ⟨wk, hwk⟩ := signal_eq ({ s with shutting := true }.emit .shutdown)
      rw [hwk] at hs
      cases hs
  | finish =>
    simp only [step, finish] at h
    split at h
    · rename_i hc
      obtain ⟨⟨r, rdwr⟩, h1, h⟩ := Exec.bind_eq_ok.1 h
      cases h
      rw [freeAll_eq] at hs
      have := hc.1
      have hs : s.shutting = false := hs
      rw [hs] at this; cases this
    · cases h; exact same rfl

end Fstrm.Iothr
