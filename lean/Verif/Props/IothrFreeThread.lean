import Verif.Props.IothrQueuesWait

/-!
# C132: free functions are called by the I/O thread, between its calls on the queues
-/

set_option autoImplicit false

namespace Fstrm.Props

open Iothr Spec

variable {σ : Type} {Q : QImpl}

theorem effect_frees {s s' : IoQ σ Q} {q t : Nat} (h : s.effect q t = .ok s') : frees s'.io.log = frees s.io.log := by
  unfold IoQ.effect at h
  split at h
  · cases h
  · cases h; simp [Iothr.emit, frees_append, frees]

theorem returned_frees {s s' : IoQ σ Q} {q t n : Nat} {ok : Bool} (h : s.returned q t ok n = .ok s') :
    frees s'.io.log = frees s.io.log := by
  unfold IoQ.returned at h
  split at h
  · cases h
  · dsimp only at h
    split at h
    · split at h
      · cases h
        simp [IoQ.signal_log, Iothr.emit, frees_append, frees]
      · cases h; rfl
    · cases h; simp [Iothr.emit, frees_append, frees]

theorem outs_frees (os : List QOut) {s s' : IoQ σ Q} {q : Nat} (h : s.outs q os = .ok s') :
    frees s'.io.log = frees s.io.log := by
  induction os generalizing s with
  | nil => cases h; rfl
  | cons o os ih =>
    obtain ⟨s1, h1, h⟩ := Exec.bind_eq_ok.1 h
    rw [ih h]
    cases o with
    | effect t => exact effect_frees h1
    | ins t ok n => exact returned_frees h1

/-- **C132**. Whatever the threads do and however their memory accesses interleave: a step in which a free
function is called is a step of the I/O thread, or the end of `fstrm_iothr_destroy`, which comes
after the I/O thread has ended and calls the free functions of the payloads left in the queues. In particular
no thread calls one while it submits a payload, and no two are called at the same time. -/
theorem frees_by_io_thread (s s' : IoQ σ Q) (a : QAct) (h : s.step a = .ok s')
    (hf : frees s'.io.log ≠ frees s.io.log) :
    (a.isIo = true ∧ s.io.pc ≠ .exited) ∨
    (a = .finish ∧ s.io.pc = .exited ∧ s.io.destroyed = false ∧ s'.io.destroyed = true ∧
      frees s'.io.log = frees s.io.log ++ s.io.queues.flatten.filter (·.hasFree)) := by
  cases a with
  | submit q t raw data f =>
    refine absurd ?_ hf
    simp only [IoQ.step, IoQ.submit] at h
    split at h
    · cases h
    · split at h
      · cases h; rfl
      · split at h
        · cases h; rfl
        · obtain ⟨io, h1, h⟩ := Exec.bind_eq_ok.1 h
          have : frees io.log = frees s.io.log := by
            unfold submitCheck at h1
            split at h1
            · cases h1
            · split at h1
              · cases h1; rfl
              · dsimp only at h1
                split at h1
                · cases h1; simp [Iothr.emit, frees_append, frees]
                · split at h1
                  · cases h1; simp [Iothr.emit, frees_append, frees]
                  · split at h1
                    · cases h1; simp [Iothr.emit, frees_append, frees]
                    · cases h1; rfl
          split at h <;> cases h <;> exact this
  | prod q t k =>
    refine absurd ?_ hf
    simp only [IoQ.step, IoQ.prod] at h
    split at h
    · cases h
    · split at h
      · cases h; rfl
      · obtain ⟨⟨c2, os⟩, h1, h⟩ := Exec.bind_eq_ok.1 h
        have := outs_frees os h
        exact this
  | flush q b i =>
    refine absurd ?_ hf
    simp only [IoQ.step, IoQ.flush] at h
    split at h
    · cases h; rfl
    · split at h
      · cases h; rfl
      · obtain ⟨⟨c2, os⟩, h1, h⟩ := Exec.bind_eq_ok.1 h
        have := outs_frees os h
        exact this
  | getQueue =>
    refine absurd ?_ hf
    obtain ⟨io, h1, h⟩ := Exec.bind_eq_ok.1 h
    cases h
    unfold getQueue at h1
    split at h1
    · cases h1
    · split at h1 <;> cases h1 <;> simp [Iothr.emit, frees_append, frees]
  | shutdown =>
    refine absurd ?_ hf
    obtain ⟨io, h1, h⟩ := Exec.bind_eq_ok.1 h
    cases h
    unfold shutdown at h1
    split at h1
    · cases h1; rfl
    · cases h1
      simp [IoQ.signal_log, Iothr.emit, frees_append, frees]
  | finish =>
    right
    simp only [IoQ.step, IoQ.finish] at h
    split at h
    · rename_i hc
      obtain ⟨xss, _, h⟩ := Exec.bind_eq_ok.1 h
      split at h
      · obtain ⟨io, h1, h⟩ := Exec.bind_eq_ok.1 h
        cases h
        unfold finish at h1
        rw [if_pos ⟨hc.1, hc.2.1, hc.2.2.1⟩] at h1
        obtain ⟨⟨r, rdwr⟩, e1, h1⟩ := Exec.bind_eq_ok.1 h1
        cases h1
        refine ⟨rfl, hc.2.1, hc.2.2.1, rfl, ?_⟩
        simp [freeAll_eq, Iothr.emit, frees_append, frees_freeEvs, frees]
      · cases h
    · cases h; exact absurd rfl hf
  | io now wake k =>
    left
    refine ⟨rfl, fun hp => hf ?_⟩
    simp only [IoQ.step, IoQ.ioStep, hp] at h
    obtain ⟨io, h1, h⟩ := Exec.bind_eq_ok.1 h
    cases h
    simp only [ioStep, hp] at h1
    cases h1; rfl

/-- When a step of the I/O thread does anything but access a queue, it is between two calls on queues. -/
theorem io_between {num sz : UInt32} {R : Q.S → QGhost → Prop} (hQ : Q.Correct num sz R) {s s' : IoQ σ Q}
    {G : Nat → QGhost} (h : s.QLink num R G) {now : Nat} {wake : Wake} {k : Nat} (hs : s.ioStep now wake k = .ok s')
    (hne : s'.io ≠ s.io) : ∃ G', s'.QLink num R G' ∧ ∀ q, (G' q).taking = false := by
  have other : (∀ i t, s.io.pc = .work i t ∨ s.io.pc = .drain i t → ¬ i < s.io.opt.numInputQueues) →
      ∀ io, s.io.ioStep now wake = .ok io → ∃ G', IoQ.QLink num R { s with io := io } G' ∧ ∀ q, (G' q).taking = false := by
    intro hn io hio
    have t := ioStep_trs hio
    have hG : ∀ q, (G q).taking = false := by
      intro q
      cases ht : (G q).taking with
      | false => rfl
      | true =>
        obtain ⟨h1, t, h2⟩ := h.g.loc q ht
        exact absurd h1 (hn q t h2)
    exact ⟨G, h.frame t (ioStep_sameQ hio hn) (Or.inr hG), hG⟩
  unfold IoQ.ioStep at hs
  split at hs
  · rename_i i total hp
    split at hs
    · rename_i hi
      obtain ⟨⟨r, s1⟩, h1, hs⟩ := Exec.bind_eq_ok.1 hs
      simp only at hs
      rcases h.take hQ (.work total hp hi) k with ⟨c, e1, G', e2, _⟩ | ⟨c, G', e1, e2, e3, _, _⟩ | ⟨c, G', e1, e2⟩
      · rw [e1] at h1; cases h1; cases hs
        exact absurd rfl hne
      · rw [e1] at h1; cases h1; cases hs
        have hpc := PcStep.workNext (s := s.io) i total (total + 0) hp
        exact ⟨G', e2.setPc _ hpc e3, e3⟩
      · rw [e1] at h1
        obtain ⟨⟨n, io⟩, h2, h1⟩ := Exec.bind_eq_ok.1 h1
        cases h1; cases hs
        obtain ⟨rfl, e3, e4⟩ := e2 n io h2
        obtain ⟨t1, t2, t3, t4, _, _⟩ := processQueue_ok h2 (.work total hp hi)
        have hpc := PcStep.workNext (s := io) i total (total + 1) (t2.trans hp)
        exact ⟨G', e3.setPc _ hpc e4, e4⟩
    · rename_i hi
      obtain ⟨io, h1, hs⟩ := Exec.bind_eq_ok.1 hs
      cases hs
      refine other ?_ io h1
      intro j t hj
      rw [hp] at hj
      rcases hj with hj | hj
      · cases hj; exact hi
      · cases hj
  · rename_i i total hp
    split at hs
    · rename_i hi
      obtain ⟨⟨r, s1⟩, h1, hs⟩ := Exec.bind_eq_ok.1 hs
      simp only at hs
      rcases h.take hQ (.drain total hp hi) k with ⟨c, e1, G', e2, _⟩ | ⟨c, G', e1, e2, e3, _, e4⟩ | ⟨c, G', e1, e2⟩
      · rw [e1] at h1; cases h1; cases hs
        exact absurd rfl hne
      · rw [e1] at h1; cases h1; cases hs
        have hpc : PcStep s.io (.drain (i + 1) (total + 0)) :=
          PcStep.drainNext (s := s.io) i total (total + 0) hp hi fun h0 =>
            ⟨by omega, fun es hes e he => e4 total hp es hes e he⟩
        exact ⟨G', e2.setPc _ hpc e3, e3⟩
      · rw [e1] at h1
        obtain ⟨⟨n, io⟩, h2, h1⟩ := Exec.bind_eq_ok.1 h1
        cases h1; cases hs
        obtain ⟨rfl, e3, e4⟩ := e2 n io h2
        obtain ⟨t1, t2, t3, t4, _, _⟩ := processQueue_ok h2 (.drain total hp hi)
        have hpc : PcStep io (.drain (i + 1) (total + 1)) :=
          PcStep.drainNext (s := io) i total (total + 1) (t2.trans hp) (t3 ▸ hi) fun h0 => absurd h0 (by omega)
        exact ⟨G', e3.setPc _ hpc e4, e4⟩
    · rename_i hi
      obtain ⟨io, h1, hs⟩ := Exec.bind_eq_ok.1 hs
      cases hs
      refine other ?_ io h1
      intro j t hj
      rw [hp] at hj
      rcases hj with hj | hj
      · cases hj
      · cases hj; exact hi
  · rename_i hp1 hp2
    obtain ⟨io, h1, hs⟩ := Exec.bind_eq_ok.1 hs
    cases hs
    refine other ?_ io h1
    intro j t hj
    rcases hj with hj | hj
    · exact absurd hj (hp1 j t)
    · exact absurd hj (hp2 j t)

/-- **C132**, queues for several producers: when the I/O thread calls a free function it does not hold the mutex of
any queue, so that a thread which submits does not have to wait until the function
returns. -/
theorem frees_without_mutex (opt : IothrOptions) (hr : Reached opt)
    (hpow : ∃ k, opt.inputQueueSize = 2 ^ k) (w : Writer σ) (as : List QAct) (s0 s s' : IoQ σ mutexQueue)
    (hi : IoQ.init mutexQueue ENTRY_SIZE opt w = some s0) (h : s0.run as = .ok s) (hfa : QAct.finish ∉ as)
    (now : Nat) (wake : Wake) (k : Nat) (hs : s.step (.io now wake k) = .ok s')
    (hf : frees s'.io.log ≠ frees s.io.log) (q : Nat) (c : Mt) (hc : s'.qs[q]? = some c) : c.owner ≠ some 0 := by
  obtain ⟨h1, h2, h3⟩ := impl_size hr hpow
  have hQ := mutex_correct (sz := ENTRY_SIZE) h2 h3
  obtain ⟨_, ⟨G, k1⟩, _⟩ := wait_setup hQ h1 hi hfa h
  obtain ⟨G', k2, k3⟩ := io_between hQ k1 hs (fun e => hf (by rw [e]))
  intro ho
  have hr : MtR (UInt32.ofNat opt.inputQueueSize) ENTRY_SIZE c (G' q) := k2.rel q c hc
  have hcr := hr.inv.crit 0 ho
  have htk := hr.taking
  rw [k3 q] at htk
  have := hr.role
  revert hcr this htk
  cases c.th 0 <;> simp [Crit, MtPc.removing, MtPc.item]

/-- Two payloads are submitted, and the I/O thread makes `n` steps. -/
def freedAfter (n : Nat) : List QAct :=
  qPre ++ List.replicate 40 (.prod 1 0 0) ++ (List.range n).map fun k => .io (10 + k) .timeout 0

/-- The free function of the first one (the other has none) is called in the 92nd step, when a wait has timed out. -/
example : ((startWith mutexQueue twoShared (freedAfter 91)).map fun s => (frees s.io.log).map Entry.id) = .ok [] ∧
    ((startWith mutexQueue twoShared (freedAfter 92)).map fun s =>
      ((frees s.io.log).map Entry.id, s.qs.map fun c : Mt => c.owner)) = .ok ([0], [none, none]) ∧
    freedAfter 92 = freedAfter 91 ++ [.io 101 .timeout 0] ∧ QAct.finish ∉ freedAfter 91 := by
  refine ⟨by decide +kernel, by decide +kernel, by decide +kernel, by decide +kernel⟩

end Fstrm.Props
