import Verif.Lemmas.IothrQueuesProgress
import Verif.Props.IothrQueues
import Verif.Props.IothrQueuesFair
import Verif.Props.IothrProgress

/-!
# C130: accepted payloads leave their queue, access by access

In `accepted_leaves` and `waits_only_when_empty` the operations on the input queues are atomic. Here they are
sequences of memory accesses, as in C79 and C80. The submissions in the log are those whose insertions have
become visible to the I/O thread.
-/

set_option autoImplicit false

namespace Fstrm.Props

open Iothr Spec

variable {σ : Type}

theorem impl_bounded {opt : IothrOptions} (hr : Reached opt) (hpow : ∃ k, opt.inputQueueSize = 2 ^ k)
    (m : Machine) : (UInt32.ofNat opt.inputQueueSize).toNat = opt.inputQueueSize ∧
      ∃ R, (opt.queueImpl m).Correct (UInt32.ofNat opt.inputQueueSize) ENTRY_SIZE R ∧
        ∃ cl, (opt.queueImpl m).ConsBounded (UInt32.ofNat opt.inputQueueSize) ENTRY_SIZE R (ENTRY_SIZE.toNat + 8) cl := by
  obtain ⟨hsz, hq, hm⟩ := impl_size hr hpow
  refine ⟨hsz, ?_⟩
  exact queueImpl_cases (P := fun Q => ∃ R, Q.Correct _ ENTRY_SIZE R ∧
      ∃ cl, Q.ConsBounded _ ENTRY_SIZE R (ENTRY_SIZE.toNat + 8) cl) opt m
    ⟨_, tso_correct hq hm, _, tso_cons_bounded⟩ ⟨_, ia64_correct hq hm, _, ia64_cons_bounded⟩
    ⟨_, mutex_correct hq hm, _, mutex_cons_bounded⟩

theorem queues_bounded {opt : IothrOptions} (hr : Reached opt) (hpow : ∃ k, opt.inputQueueSize = 2 ^ k)
    {m : Machine} {w : Writer σ} {as : List QAct} {s0 s : IoQ σ (opt.queueImpl m)}
    (hi : IoQ.init (opt.queueImpl m) ENTRY_SIZE opt w = some s0) (h : s0.run as = .ok s) :
    ∃ R cl, (opt.queueImpl m).Correct (UInt32.ofNat opt.inputQueueSize) ENTRY_SIZE R ∧
      (opt.queueImpl m).ConsBounded (UInt32.ofNat opt.inputQueueSize) ENTRY_SIZE R (ENTRY_SIZE.toNat + 8) cl ∧
      s.Link (UInt32.ofNat opt.inputQueueSize) R ∧ IoQ.Cb (ENTRY_SIZE.toNat + 8) cl s ∧
      (∀ q, (s.io.waiting q).length ≤ opt.inputQueueSize - 1) ∧
      s.io.opt.numInputQueues = opt.numInputQueues := by
  obtain ⟨h1, R, hQ, cl, hB⟩ := impl_bounded hr hpow m
  obtain ⟨s1, h2, h3, h4⟩ := IoQ.Link.init hQ h1 w
  rw [hi] at h2; cases h2
  have hcb0 : IoQ.Cb (ENTRY_SIZE.toNat + 8) cl s0 := by
    unfold IoQ.init at hi
    obtain ⟨c, hc, rfl⟩ := Option.map_eq_some_iff.1 hi
    intro j c' hj
    simp only [List.getElem?_replicate] at hj
    split at hj
    · cases hj; exact hB.create _ hc
    · cases hj
  have key : ∀ (as : List QAct) (s0 : IoQ σ (opt.queueImpl m)), s0.run as = .ok s →
      s0.Link (UInt32.ofNat opt.inputQueueSize) R → IoQ.Cb (ENTRY_SIZE.toNat + 8) cl s0 →
      IoQ.Cb (ENTRY_SIZE.toNat + 8) cl s := by
    intro as
    induction as with
    | nil => intro s0 h _ hc; cases h; exact hc
    | cons a as ih =>
      intro s0 h hl hc
      obtain ⟨s1, g1, h⟩ := Exec.bind_eq_ok.1 h
      exact ih s1 h (hl.step hQ g1).1 (hl.cb_step hQ hB hc g1)
  obtain ⟨h5, h6⟩ := h3.run hQ as h
  rw [h4] at h6
  have ho : s.io.opt = (Iothr.init opt w).opt :=
    h6.inv (P := fun x => x.opt = (Iothr.init opt w).opt) (fun _ _ h t => t.opt.trans h) rfl
  have ho1 : (Iothr.init opt w).opt.inputQueueSize = opt.inputQueueSize ∧
      (Iothr.init opt w).opt.numInputQueues = opt.numInputQueues := by
    unfold Iothr.init
    simp only
    split <;> exact ⟨rfl, rfl⟩
  refine ⟨R, cl, hQ, hB, h5, key as s0 h h3 hcb0, ?_, ?_⟩
  · have := h6.cap (Live.init opt w).cap
    rw [ho, ho1.1] at this
    exact this
  · rw [ho, ho1.2]

/-- **C130**, first part, for every interleaving of the memory accesses of the submitting threads and the I/O
thread, on every machine and for both kinds of queue. Let the insertion of `e` have become visible. Once the
I/O thread has made `input_queue_size * (num_input_queues + 3) * (sizeof(struct) + 9)` more steps, not counting those
in which it waits, `e` is in no queue any more, unless `fstrm_iothr_destroy` has been called: if it
has a free function, it has been called, or `e` is in the output buffer. -/
theorem accepted_leaves_in_memory (opt : IothrOptions) (hr : Reached opt)
    (hpow : ∃ k, opt.inputQueueSize = 2 ^ k) (m : Machine) (w : Writer σ) (as bs : List QAct)
    (s0 s s' : IoQ σ (opt.queueImpl m)) (hi : IoQ.init (opt.queueImpl m) ENTRY_SIZE opt w = some s0)
    (h : s0.run as = .ok s) (e : Entry) (he : e ∈ submits s.io.log) (n : Nat)
    (hb : Moves s bs n s') (hs : IoEv.shutdown ∉ s'.io.log)
    (hk : opt.inputQueueSize * (opt.numInputQueues + 3) * (ENTRY_SIZE.toNat + 9) ≤ n) :
    e ∉ s'.io.queues.flatten ∧ (e.hasFree = true → e ∈ frees s'.io.log ∨ e ∈ s'.io.outq) := by
  obtain ⟨R, cl, hQ, hB, hl, hcb, hcap, hN⟩ := queues_bounded hr hpow hi h
  obtain ⟨hl', ht⟩ := hl.run hQ bs hb.run
  have hout : e ∉ s'.io.queues.flatten := by
    by_cases hm : e ∈ s.io.queues.flatten
    · intro hin
      obtain ⟨hq, hw⟩ := mem_queues_waiting hl.invA hm
      obtain ⟨l1, l2, hw⟩ := List.append_of_mem hw
      obtain ⟨_, hd⟩ := hl.undestroyed ht hs
      obtain ⟨G, hG⟩ := hl.live hd
      have h1 := hG.progress hQ hB hb hcb hs hq hw hin
      have h2 := hcap e.queue
      rw [hw] at h2
      simp only [List.length_append, List.length_cons] at h2
      have h3 := dist_le s.io.opt.numInputQueues e.queue s.io.pc hq
      have h4 := hcb.cur
      have h5 := IoQ.late_le G e.queue l2
      unfold IoQ.rank at h1
      rw [hN, show ENTRY_SIZE.toNat + 8 + 1 = ENTRY_SIZE.toNat + 9 from rfl] at h1
      rw [hN] at h3
      have h6 : (IoQ.late G e.queue l2 + l1.length + 1) * (opt.numInputQueues + 3) ≤
          opt.inputQueueSize * (opt.numInputQueues + 3) := Nat.mul_le_mul_right _ (by omega)
      rw [Nat.succ_mul] at h6
      have h7 : ((IoQ.late G e.queue l2 + l1.length) * (opt.numInputQueues + 3) +
          dist opt.numInputQueues e.queue s.io.pc + 1) * (ENTRY_SIZE.toNat + 9) ≤
          opt.inputQueueSize * (opt.numInputQueues + 3) * (ENTRY_SIZE.toNat + 9) :=
        Nat.mul_le_mul_right _ (by omega)
      rw [Nat.succ_mul] at h7
      omega
    · exact ht.stays_out hl.invA he hm
  refine ⟨hout, fun hf => ?_⟩
  have h1 := hl'.invA.cons e hf
  have h2 : 0 < (submits s'.io.log).count e := by
    obtain ⟨x, hx⟩ := ht.log
    rw [hx, submits_append]
    exact List.count_pos_iff.2 (List.mem_append_left _ he)
  rw [List.count_eq_zero.2 hout] at h1
  by_cases h3 : e ∈ frees s'.io.log
  · exact Or.inl h3
  · rw [List.count_eq_zero.2 h3] at h1
    exact Or.inr (List.count_pos_iff.1 (by omega))

/-- **C130**, third part, access by access. When the I/O thread begins to wait, every payload whose insertion was
visible when it began its last pass over the queues (or an earlier one) has left its queue. -/
theorem waits_only_when_empty_in_memory (opt : IothrOptions) (hr : Reached opt)
    (hpow : ∃ k, opt.inputQueueSize = 2 ^ k) (m : Machine) (w : Writer σ) (as bs : List QAct)
    (s0 s s' : IoQ σ (opt.queueImpl m)) (hi : IoQ.init (opt.queueImpl m) ENTRY_SIZE opt w = some s0)
    (h : s0.run as = .ok s) (hp : s.io.passBegins = true) (hb : s.run bs = .ok s')
    (ha : s'.io.asleep = true) (e : Entry) (he : e ∈ submits s.io.log) : e ∉ s'.io.queues.flatten := by
  obtain ⟨R, cl, hQ, hB, hl, hcb, hcap, hN⟩ := queues_bounded hr hpow hi h
  have hpc : s.io.pc = .top := by
    unfold passBegins at hp
    split at hp
    · assumption
    · cases hp
  intro hin
  have und : ∀ (bs : List QAct) (s : IoQ σ (opt.queueImpl m)), s.run bs = .ok s' →
      s.Link (UInt32.ofNat opt.inputQueueSize) R → s.io.destroyed = false := by
    intro bs
    induction bs with
    | nil =>
      intro s h hl
      cases h
      cases hd : s'.io.destroyed with
      | false => rfl
      | true =>
        have := (hl.invA.dest hd).1
        unfold asleep at ha
        rw [this] at ha; cases ha
    | cons a bs ih =>
      intro s h hl
      obtain ⟨s1, g1, h⟩ := Exec.bind_eq_ok.1 h
      have := ih s1 h (hl.step hQ g1).1
      cases hd : s.io.destroyed with
      | false => rfl
      | true => rw [hl.dead hd g1, hd] at this; cases this
  have key : ∀ (bs : List QAct) (s : IoQ σ (opt.queueImpl m)) (G : Nat → QGhost) (l1 l2 : List Entry),
      s.run bs = .ok s' → s.QLink (UInt32.ofNat opt.inputQueueSize) R G → IoQ.Cb (ENTRY_SIZE.toNat + 8) cl s →
      e ∈ submits s.io.log → e.queue < s.io.opt.numInputQueues →
      s.io.waiting e.queue = l1 ++ e :: l2 → s.io.asleep = false → IoQ.late G e.queue l2 = 0 →
      (∀ i, s.io.pc = .work i 0 → i ≤ e.queue) → False := by
    intro bs
    induction bs with
    | nil => intro s G l1 l2 h _ _ _ _ _ h1 _ _; cases h; rw [ha] at h1; cases h1
    | cons a bs ih =>
      intro s G l1 l2 h hG hcb he hq hw h1 h2 h3
      obtain ⟨s1, g1, h⟩ := Exec.bind_eq_ok.1 h
      obtain ⟨hl1, t1⟩ := hG.link.step hQ g1
      have t2 := (hl1.run hQ bs h).2
      have he1 : e ∈ submits s1.io.log := by
        obtain ⟨x, hx⟩ := t1.log
        rw [hx, submits_append]; exact List.mem_append_left _ he
      have hin1 : e ∈ s1.io.queues.flatten :=
        Decidable.byContradiction fun hn => t2.stays_out hl1.invA he1 hn hin
      have ho : s1.io.opt = s.io.opt :=
        t1.inv (P := fun x => x.opt = s.io.opt) (fun _ _ h t => t.opt.trans h) rfl
      obtain ⟨G', l1', l2', e1, e2, e3, e4, e5, e6⟩ :=
        hG.awake hQ hB hcb g1 (und bs s1 h hl1) hq hw h1 h2 h3 hin1
      exact ih s1 G' l1' l2' h e1 e2 he1 (by rw [ho]; exact hq) e3 e4 e5 e6
  obtain ⟨_, ht⟩ := hl.run hQ bs hb
  have hin0 : e ∈ s.io.queues.flatten := Decidable.byContradiction fun hn => ht.stays_out hl.invA he hn hin
  obtain ⟨hq, hw⟩ := mem_queues_waiting hl.invA hin0
  obtain ⟨l1, l2, hw⟩ := List.append_of_mem hw
  obtain ⟨G, hG⟩ := hl.live (und bs s hb hl)
  have hno : (G e.queue).taking = false := by
    cases htk : (G e.queue).taking with
    | false => rfl
    | true =>
      obtain ⟨_, t, h2 | h2⟩ := hG.g.loc e.queue htk <;> rw [hpc] at h2 <;> cases h2
  exact key bs s G l1 l2 hb hG hcb he hq hw (by unfold asleep; rw [hpc]) (IoQ.late_none hno _)
    (by intro i hi; rw [hpc] at hi; cases hi)

/-- Three payloads for queue 0, visible before the I/O thread starts. -/
def qThree : List QAct :=
  aSubmit 0 0 8 [8] true ++ drainStores 0 ++ aSubmit 0 0 9 [9] true ++ drainStores 0 ++
  aSubmit 0 0 7 [7] true ++ drainStores 0

/-- What is shown of the state in the examples: the program counter, and how far the looks at the queues are. -/
def shown (s : IoQ Pipe (twoQueues.queueImpl .x86_64)) : IoPc × List Nat :=
  (s.io.pc, (show List Tso from s.qs).map fun c => c.c.left 32)

/-- The I/O thread at work, its stores reaching memory at once, while the clock goes on. -/
def qOn (n : Nat) : List QAct :=
  (List.range n).flatMap fun j => [.io (10 + 20 * j) .timeout 0, .flush 0 false 0, .flush 1 false 0]

/-- In a concrete execution the I/O thread makes the steps which the theorem asks for, and
the payloads are in the output buffer. -/
example : 4 * (2 + 3) * (ENTRY_SIZE.toNat + 9) = 820 ∧
    (startQueues twoQueues qThree).map (fun s => ((submits s.io.log).map Entry.data,
      s.io.queues.map List.length, decide (820 ≤ seenMoves shown s (qOn 850)))) =
      .ok ([[8], [9], [7]], [3, 0], true) ∧
    (startQueues twoQueues (qThree ++ qOn 850)).map (fun s => (s.io.queues.map List.length,
      (frees s.io.log ++ s.io.outq).map Entry.data, decide (IoEv.shutdown ∈ s.io.log))) =
      .ok ([0, 0], [[8], [9], [7]], false) := by
  decide +kernel

/-- The number of steps computed in the example is at most that of the theorem. -/
example (s s' : IoQ Pipe (twoQueues.queueImpl .x86_64)) (h : s.run (qOn 850) = .ok s')
    (hk : 820 ≤ seenMoves shown s (qOn 850)) : ∃ n, 820 ≤ n ∧ Moves s (qOn 850) n s' := by
  obtain ⟨n, h1, h2⟩ := Moves.of_run shown _ h
  exact ⟨n, Nat.le_trans hk h2, h1⟩

/-- Before its first pass the I/O thread finds three payloads; when it waits for the first time, they are gone. -/
example : (startQueues twoQueues (qThree ++ qTimes 1 10)).map
    (fun s => (s.io.passBegins, (submits s.io.log).length, s.io.queues.map List.length)) =
      .ok (true, 3, [3, 0]) ∧
    (startQueues twoQueues (qThree ++ qTimes 1 10 ++ qTimes 200 10)).map
    (fun s => (s.io.asleep, s.io.queues.map List.length)) = .ok (true, [0, 0]) := by
  decide +kernel

end Fstrm.Props
