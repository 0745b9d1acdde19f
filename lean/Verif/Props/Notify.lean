import Verif.Props.Iothr
import Verif.Props.IothrQueues

/-!
# C85: when submitting wakes the I/O thread
-/

set_option autoImplicit false

namespace Fstrm.Props

open Iothr Spec

variable {σ : Type}

/-- The number of entries in input queue `i`. -/
def outstanding (s : Iothr σ) (i : Nat) : Nat := (s.queues[i]?.getD []).length

/-- The number of entries that can still be put into input queue `i`: a queue of size `n` takes
`n - 1` entries (C19). -/
def room (s : Iothr σ) (i : Nat) : Nat := s.opt.inputQueueSize - 1 - outstanding s i

/-- The number of free entries of some queue has fallen to the threshold. -/
def Lowered (s s' : Iothr σ) : Prop :=
  ∃ i, s.opt.notifyThreshold < room s i ∧ room s' i ≤ s.opt.notifyThreshold

private theorem set_getD {α : Type} (l : List (List α)) (i j : Nat) (x : List α) (hi : i < l.length) :
    ((l.set i x)[j]?.getD []) = if i = j then x else l[j]?.getD [] := by
  rw [List.getElem?_set]
  by_cases h : i = j
  · subst h; simp [hi]
  · simp [h]

private theorem client_wakes {s s' : Iothr σ} {a : IoAct} {d : Nat} (ha : isIo a = false)
    (hp : s.pc = .sleep d) (h : s.step a = .ok s') :
    s'.pc = .sleep d ∧ s'.opt = s.opt ∧ (∀ i, outstanding s i ≤ outstanding s' i) ∧
    (s.shutting = true → s'.shutting = true) ∧
    (s'.woken = true ↔ s.woken = true ∨ (s.shutting = false ∧ s'.shutting = true) ∨ Lowered s s') := by
  have low : ∀ {s s' : Iothr σ}, s'.queues = s.queues → s'.opt = s.opt → ¬ Lowered s s' := by
    intro s s' hq ho ⟨i, h1, h2⟩
    unfold room outstanding at *
    rw [hq, ho] at h2
    omega
  have refl : ∀ {s s' : Iothr σ}, s.pc = .sleep d → s'.pc = s.pc → s'.opt = s.opt →
      s'.queues = s.queues → s'.shutting = s.shutting → s'.woken = s.woken →
      s'.pc = .sleep d ∧ s'.opt = s.opt ∧ (∀ i, outstanding s i ≤ outstanding s' i) ∧
      (s.shutting = true → s'.shutting = true) ∧
      (s'.woken = true ↔ s.woken = true ∨ (s.shutting = false ∧ s'.shutting = true) ∨
        Lowered s s') := by
    intro s s' h0 h1 h2 h3 h4 h5
    refine ⟨h1.trans h0, h2, fun i => ?_, fun h => h4.trans h, ?_⟩
    · unfold outstanding; rw [h3]; exact Nat.le_refl _
    · rw [h5, h4]
      have := low h3 h2
      cases s.shutting <;> simp [this]
  cases a with
  | io now wk => cases ha
  | submit t q data f =>
    simp only [step, submitCheck] at h
    repeat' split at h
    all_goals (cases h; try exact refl hp rfl rfl rfl rfl rfl)
  | getQueue =>
    simp only [step, getQueue] at h
    repeat' split at h
    all_goals (cases h; try exact refl hp rfl rfl rfl rfl rfl)
  | finish =>
    simp only [step, finish, hp] at h
    rw [if_neg (by simp)] at h
    cases h
    exact refl hp rfl rfl rfl rfl rfl
  | shutdown =>
    simp only [step, shutdown] at h
    split at h
    · cases h; exact refl hp rfl rfl rfl rfl rfl
    · rename_i hs
      simp only [signal, emit, hp] at h
      cases h
      exact ⟨rfl, rfl, fun _ => Nat.le_refl _, fun _ => rfl, by simp [hs]⟩
  | insert t =>
    simp only [step, submitInsert] at h
    split at h
    · cases h; exact refl hp rfl rfl rfl rfl rfl
    rename_i e he
    split at h
    · cases h
    split at h
    · cases h; exact refl hp rfl rfl rfl rfl rfl
    rename_i q hq
    split at h
    · rename_i hlt
      have hi : e.queue < s.queues.length := by
        by_cases hi : e.queue < s.queues.length
        · exact hi
        · rw [List.getElem?_eq_none (by omega)] at hq; cases hq
      have hqd : s.queues[e.queue]?.getD [] = q := by rw [hq]; rfl
      have len : ∀ (s1 : Iothr σ), s1.queues = s.queues.set e.queue (q ++ [e]) → ∀ i,
          outstanding s1 i = if e.queue = i then q.length + 1 else outstanding s i := by
        intro s1 h1 i
        unfold outstanding
        rw [h1, set_getD _ _ _ _ hi]
        split
        · simp
        · rfl
      have lens : ∀ i, e.queue = i → outstanding s i = q.length := by
        intro i hi'; subst hi'; unfold outstanding; rw [hqd]
      have crossing : ∀ (s1 : Iothr σ), s1.queues = s.queues.set e.queue (q ++ [e]) →
          s1.opt = s.opt → (Lowered s s1 ↔
            s.opt.inputQueueSize - 1 - (q.length + 1) = s.opt.notifyThreshold) := by
        intro s1 h1 h2
        constructor
        · intro ⟨i, g1, g2⟩
          unfold room at g1 g2
          rw [len s1 h1 i, h2] at g2
          by_cases hi' : e.queue = i
          · rw [if_pos hi'] at g2
            rw [lens i hi'] at g1
            omega
          · rw [if_neg hi'] at g2
            omega
        · intro hsp
          refine ⟨e.queue, ?_, ?_⟩
          · unfold room
            rw [lens _ rfl]
            omega
          · unfold room
            rw [len s1 h1, if_pos rfl, h2]
            omega
      have grow : ∀ (s1 : Iothr σ), s1.queues = s.queues.set e.queue (q ++ [e]) →
          ∀ i, outstanding s i ≤ outstanding s1 i := by
        intro s1 h1 i
        rw [len s1 h1 i]
        split
        · rename_i hi'; rw [lens i hi']; omega
        · exact Nat.le_refl _
      split at h
      · rename_i hsp
        simp only [signal, emit, hp] at h
        cases h
        refine ⟨rfl, rfl, grow _ (by rfl), fun h => h, ?_⟩
        simp only [true_iff]
        exact Or.inr (Or.inr ((crossing _ (by rfl) (by rfl)).2 hsp))
      · rename_i hsp
        cases h
        refine ⟨hp, rfl, grow _ (by rfl), fun h => h, ?_⟩
        simp only [emit]
        generalize hs2 : (Iothr.mk _ _ _ _ _ _ _ _ _ _ _ _ _ _ _) = s2
        have := mt (crossing s2 (by rw [← hs2]) (by rw [← hs2])).1 hsp
        cases s.shutting <;> simp [this]
    · cases h; exact refl hp rfl rfl rfl rfl rfl

/-- **C85, as far as it is true.** While the I/O thread waits, whatever the clients do meanwhile:
its wait has been ended by a signal exactly if destroy was called or the number of *free* entries of
some input queue has fallen from above `queue_notify_threshold` to it. The thread then
starts over, which it does not (because of a signal) otherwise. -/
theorem notify_partial (s0 s : Iothr σ) (d : Nat) (cl : List IoAct)
    (hp : s0.pc = .sleep d) (hw : s0.woken = false)
    (hcl : ∀ a ∈ cl, isIo a = false) (h : s0.run cl = .ok s) :
    (s.woken = true ↔ (s0.shutting = false ∧ s.shutting = true) ∨
      ∃ i, s0.opt.notifyThreshold < room s0 i ∧ room s i ≤ s0.opt.notifyThreshold) ∧
    (∀ now, s.woken = true → s.step (.io now .signal) = .ok { s with pc := .top }) ∧
    (∀ now, s.woken = false → s.step (.io now .signal) = .ok s) := by
  have key : ∀ (cl : List IoAct) (s0 : Iothr σ), s0.pc = .sleep d → (∀ a ∈ cl, isIo a = false) →
      s0.run cl = .ok s → s.pc = .sleep d ∧ s.opt = s0.opt ∧
        (∀ i, outstanding s0 i ≤ outstanding s i) ∧ (s0.shutting = true → s.shutting = true) ∧
        (s.woken = true ↔ s0.woken = true ∨ (s0.shutting = false ∧ s.shutting = true) ∨
          Lowered s0 s) := by
    intro cl
    induction cl with
    | nil =>
      intro s0 hp _ h
      cases h
      refine ⟨hp, rfl, fun _ => Nat.le_refl _, fun h => h, ?_⟩
      have : ¬ Lowered s s := fun ⟨i, h1, h2⟩ => by omega
      cases s.shutting <;> simp [this]
    | cons a cl ih =>
      intro s0 hp hcl h
      obtain ⟨s1, h1, h⟩ := Exec.bind_eq_ok.1 h
      obtain ⟨a1, a2, a3, a4, a5⟩ := client_wakes (hcl a (by simp)) hp h1
      obtain ⟨b1, b2, b3, b4, b5⟩ := ih s1 a1 (fun a ha => hcl a (by simp [ha])) h
      refine ⟨b1, b2.trans a2, fun i => Nat.le_trans (a3 i) (b3 i), fun h => b4 (a4 h), ?_⟩
      have hl : Lowered s0 s ↔ Lowered s0 s1 ∨ Lowered s1 s := by
        constructor
        · intro ⟨i, g1, g2⟩
          by_cases g : room s1 i ≤ s0.opt.notifyThreshold
          · exact Or.inl ⟨i, g1, g⟩
          · exact Or.inr ⟨i, by rw [a2]; omega, by rw [a2]; exact g2⟩
        · rintro (⟨i, g1, g2⟩ | ⟨i, g1, g2⟩)
          · refine ⟨i, g1, ?_⟩
            have := b3 i
            unfold room at *
            rw [a2] at g2
            rw [b2, a2]
            omega
          · refine ⟨i, ?_, by rw [← a2]; exact g2⟩
            have := a3 i
            unfold room at *
            rw [a2] at g1
            omega
      rw [b5, a5, hl]
      cases h0 : s0.shutting <;> cases h1 : s1.shutting <;> cases h2 : s.shutting <;>
        simp_all [or_assoc]
  obtain ⟨k1, k2, k3, k4, k5⟩ := key cl s0 hp hcl h
  refine ⟨?_, fun now hwk => ?_, fun now hwk => ?_⟩
  · rw [k5, hw]
    simp [Lowered]
  · simp [step, ioStep, k1, hwk]
  · simp [step, ioStep, k1, hwk]

/-- Options for the examples: eight entries, threshold 2. -/
def watermark : IothrOptions :=
  (setOpt .notifyThreshold (setOpt .inputQueueSize IothrOptions.init 8).2 2).2

/-- `k` payloads are submitted. -/
def submitMany (k : Nat) : List IoAct :=
  (List.replicate k [IoAct.submit 0 0 (some [0]) false, .insert 0]).flatten

/-- The hypotheses can be met: the I/O thread waits, and after the fifth submission (two of
seven entries are free) it has been woken. -/
example : ∃ s0 s : Iothr Pipe, (Iothr.init watermark pipeWriter).run (ioTimes 4 9) = .ok s0 ∧
    s0.pc = .sleep 10 ∧ s0.woken = false ∧ (∀ a ∈ submitMany 5, isIo a = false) ∧
    s0.run (submitMany 5) = .ok s ∧ room s0 0 = 7 ∧ room s 0 = 2 ∧ s.woken = true :=
  ⟨_, _, rfl, rfl, rfl, by decide, rfl, rfl, rfl, rfl⟩

/-- **The property is false**: with a `queue_notify_threshold` of 2, the I/O thread waiting, and two
outstanding entries in an input queue (after two submissions that succeeded), and even with twice
as many, the I/O thread has not been woken. The number that is compared with the threshold is
that of the free entries. -/
theorem notify_wrong :
    Reached watermark ∧ watermark.notifyThreshold = 2 ∧
    ((Iothr.init watermark pipeWriter).run (ioTimes 4 9 ++ submitMany 2)).map
      (fun s => (s.pc, outstanding s 0, s.woken)) = .ok (.sleep 10, 2, false) ∧
    ((Iothr.init watermark pipeWriter).run (ioTimes 4 9 ++ submitMany 4)).map
      (fun s => (s.pc, outstanding s 0, s.woken)) = .ok (.sleep 10, 4, false) :=
  ⟨.set _ _ _ (.set _ _ _ .init), by decide, by decide +kernel, by decide +kernel⟩

/-- **With a threshold that is not below the size of the queue, submitting never wakes the I/O
thread.** The setters allow that. -/
theorem notify_never (s0 s : Iothr σ) (d : Nat) (cl : List IoAct)
    (hp : s0.pc = .sleep d) (hw : s0.woken = false) (hs : s0.opt.inputQueueSize ≤ s0.opt.notifyThreshold + 1)
    (hcl : ∀ a ∈ cl, isIo a = false ∧ a ≠ .shutdown) (hsh : s0.shutting = false)
    (h : s0.run cl = .ok s) : s.woken = false := by
  have hns : ∀ (cl : List IoAct) (s0 : Iothr σ), s0.pc = .sleep d → s0.shutting = false →
      (∀ a ∈ cl, isIo a = false ∧ a ≠ .shutdown) → s0.run cl = .ok s → s.shutting = false := by
    intro cl
    induction cl with
    | nil => intro s0 _ h1 _ h; cases h; exact h1
    | cons a cl ih =>
      intro s0 hp h1 hcl h
      obtain ⟨s1, h2, h⟩ := Exec.bind_eq_ok.1 h
      obtain ⟨ha, hb⟩ := hcl a (by simp)
      have hp1 := (client_frame ha (by rw [hp]; simp) h2).1
      refine ih s1 (hp1.trans hp) ?_ (fun a ha => hcl a (by simp [ha])) h
      cases a with
      | io _ _ => cases ha
      | shutdown => exact absurd rfl hb
      | submit t q data f =>
        simp only [step, submitCheck] at h2
        repeat' split at h2
        all_goals (cases h2; try exact h1)
      | getQueue =>
        simp only [step, getQueue] at h2
        repeat' split at h2
        all_goals (cases h2; try exact h1)
      | finish =>
        simp only [step, finish, hp] at h2
        rw [if_neg (by simp)] at h2
        cases h2; exact h1
      | insert t =>
        simp only [step, submitInsert] at h2
        repeat' split at h2
        all_goals (cases h2; try exact h1)
        simp only [signal, emit, hp]
        exact h1
  have := (notify_partial s0 s d cl hp hw (fun a ha => (hcl a ha).1) h).1
  cases hwk : s.woken with
  | false => rfl
  | true =>
    rcases this.1 hwk with ⟨_, h1⟩ | ⟨i, h1, _⟩
    · rw [hns cl s0 hp hsh hcl h] at h1; cases h1
    · unfold room at h1; omega

/-- The hypotheses can be met, with options made by the setters. -/
example : Reached (setOpt .inputQueueSize IothrOptions.init 32).2 ∧
    ∃ s0 : Iothr Pipe, (Iothr.init (setOpt .inputQueueSize IothrOptions.init 32).2 pipeWriter).run
      (ioTimes 4 9) = .ok s0 ∧ s0.pc = .sleep 10 ∧ s0.woken = false ∧ s0.shutting = false ∧
      s0.opt.inputQueueSize ≤ s0.opt.notifyThreshold + 1 :=
  ⟨.set _ _ _ .init, _, rfl, rfl, rfl, rfl, by decide⟩

/-! ## With the real queues -/

/-- Does this say that insert returned success with `n` free entries? -/
def QOut.left (n : Nat) : QOut → Bool
  | .ins _ true space => space == n
  | _ => false

/-- **C85 with the real queues**: with every next access of a submit call, the condition variable is
signalled once for every insert call that now returns success and reports that exactly
`queue_notify_threshold` entries are free, and not otherwise. -/
theorem queues_notify {Q : QImpl} (s s' : IoQ σ Q) (q t k : Nat) (c c' : Q.S) (os : List QOut)
    (hc : s.qs[q]? = some c) (hq : Q.prod c t k = .ok (c', os))
    (h : s.step (.prod q t k) = .ok s') :
    s'.io.log.count .signal =
      s.io.log.count .signal + os.countP (QOut.left s.io.opt.notifyThreshold) ∧
    (∀ d, s.io.pc = .sleep d → (s'.io.woken = true ↔ s.io.woken = true ∨
      ∃ o ∈ os, QOut.left s.io.opt.notifyThreshold o = true)) := by
  have key : ∀ (os : List QOut) (s s' : IoQ σ Q), s.outs q os = .ok s' →
      s'.io.log.count .signal =
        s.io.log.count .signal + os.countP (QOut.left s.io.opt.notifyThreshold) ∧
      (∀ d, s.io.pc = .sleep d → (s'.io.woken = true ↔ s.io.woken = true ∨
        ∃ o ∈ os, QOut.left s.io.opt.notifyThreshold o = true)) := by
    intro os
    induction os with
    | nil => intro s s' h; cases h; simp
    | cons o os ih =>
      intro s s' h
      obtain ⟨s1, h1, h⟩ := Exec.bind_eq_ok.1 h
      obtain ⟨i1, i2⟩ := ih s1 s' h
      have hs1 : s1.io.opt = s.io.opt ∧ s1.io.pc = s.io.pc ∧
          s1.io.log.count .signal = s.io.log.count .signal +
            (if QOut.left s.io.opt.notifyThreshold o then 1 else 0) ∧
          (∀ d, s.io.pc = .sleep d → (s1.io.woken = true ↔ s.io.woken = true ∨
            QOut.left s.io.opt.notifyThreshold o = true)) := by
        cases o with
        | effect u =>
          simp only [IoQ.out, IoQ.effect] at h1
          split at h1
          · cases h1
          · cases h1; simp [emit, QOut.left]
        | ins u ok space =>
          simp only [IoQ.out, IoQ.returned] at h1
          split at h1
          · cases h1
          cases ok with
          | true =>
            simp only [if_true] at h1
            by_cases hs : space = s.io.opt.notifyThreshold
            · rw [if_pos hs] at h1
              cases h1
              obtain ⟨wk, hwk⟩ := signal_eq (s.io.emit .signal)
              refine ⟨?_, ?_, ?_, ?_⟩
              · simp only [hwk]; rfl
              · simp only [hwk]; rfl
              · simp only [hwk]; simp [emit, QOut.left, hs]
              · intro d hd
                simp [signal, emit, hd, QOut.left, hs]
            · rw [if_neg hs] at h1
              cases h1
              simp [QOut.left, hs]
          | false =>
            simp only [Bool.false_eq_true, if_false] at h1
            cases h1
            simp [emit, QOut.left]
      obtain ⟨j1, j2, j3, j4⟩ := hs1
      refine ⟨?_, fun d hd => ?_⟩
      · rw [i1, j1, j3, List.countP_cons]
        omega
      · rw [i2 d (j2.trans hd), j4 d hd, j1]
        simp [or_assoc]
  simp only [IoQ.step, IoQ.prod] at h
  split at h
  · cases h
  rw [hc] at h
  dsimp only at h
  rw [hq, Exec.ok_bind] at h
  exact key os { s with qs := s.qs.set q c' } s' h

/-- The I/O thread waits and a thread is about to return from its first insertion. -/
def firstInsert : List QAct :=
  List.replicate 6 (.io 9 .timeout 0) ++
    [.submit 0 0 [5] (some [0]) false, .prod 0 0 0, .prod 0 0 0, .prod 0 0 0]

/-- The hypotheses can be met, and a signal is sent: the first insertion leaves six of seven
entries. -/
example :
    ((IoQ.init tsoQueue 1 (setOpt .notifyThreshold watermark 6).2 pipeWriter).bind fun s0 =>
      (s0.run firstInsert).toOption.map fun s => (s.io.pc, s.io.woken)) = some (.sleep 10, false) ∧
    ((IoQ.init tsoQueue 1 (setOpt .notifyThreshold watermark 6).2 pipeWriter).bind fun s0 =>
      (s0.run firstInsert).toOption.bind fun s => s.qs[0]?.bind fun c =>
        (tsoQueue.prod c 0 0).toOption.map (·.2)) = some [.ins 0 true 6] ∧
    ((IoQ.init tsoQueue 1 (setOpt .notifyThreshold watermark 6).2 pipeWriter).bind fun s0 =>
      (s0.run (firstInsert ++ [.prod 0 0 0])).toOption.map fun s =>
        (s.io.woken, s.io.log.count .signal)) = some (true, 1) := by decide +kernel

end Fstrm.Props
