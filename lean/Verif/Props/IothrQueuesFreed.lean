import Verif.Lemmas.IothrQueuesFreed
import Verif.Props.IothrQueuesProgress

/-!
# C131: payloads are released while the program runs, access by access

In `accepted_freed_partial` the operations on the input queues are atomic. Here they are sequences of memory
accesses, as in C79, C80 and C130.
-/

set_option autoImplicit false

namespace Fstrm.Props

open Iothr Spec

variable {σ : Type}

/-- The output buffer does not overflow. -/
theorem out_bounded {opt : IothrOptions} (hr : Reached opt) (hpow : ∃ k, opt.inputQueueSize = 2 ^ k)
    {m : Machine} {w : Writer σ} {as : List QAct} {s0 s : IoQ σ (opt.queueImpl m)}
    (hi : IoQ.init (opt.queueImpl m) ENTRY_SIZE opt w = some s0) (h : s0.run as = .ok s) :
    s.io.outq.length ≤ s.io.opt.outputQueueSize ∧ s.io.opt.outputQueueSize ≤ opt.outputQueueSize := by
  obtain ⟨h1, R, hQ, cl, hB⟩ := impl_bounded hr hpow m
  obtain ⟨s2, g2, g3, g4⟩ := IoQ.Link.init hQ h1 w
  rw [hi] at g2; cases g2
  have h6 := (g3.run hQ as h).2
  rw [g4] at h6
  refine ⟨?_, ?_⟩
  · refine h6.inv (P := fun s => s.outq.length ≤ s.opt.outputQueueSize) ?_ (by simp [Iothr.init])
    intro s s' hp t
    cases t with
    | push i x rest h1 h2 h3 h4 => simp only [List.length_append, List.length_cons, List.length_nil]; omega
    | flushOk | flushFail | flushIdle => simp
    | _ => exact hp
  · have ho : s.io.opt = (Iothr.init opt w).opt :=
      h6.inv (P := fun x => x.opt = (Iothr.init opt w).opt) (fun _ _ h t => t.opt.trans h) rfl
    rw [ho]
    unfold Iothr.init
    simp only
    split
    · rename_i hc; exact Nat.le_of_lt hc
    · exact Nat.le_refl _

theorem freed_arith {L I B N v v' d d' n c K : Nat} (h1 : L ≤ B) (h2 : v ≤ v') (h3 : d ≤ d') (h4 : c < K)
    (hp : n - I * K ≤ L * K + c + (v * (N + 3) + d * (3 * N + 6)) * K)
    (hk : (I + B + 1 + v' * (N + 3) + d' * (3 * N + 6)) * K ≤ n) : False := by
  have a1 := Nat.mul_le_mul_right K h1
  have a2 := Nat.mul_le_mul_right K (Nat.mul_le_mul_right (N + 3) h2)
  have a3 := Nat.mul_le_mul_right K (Nat.mul_le_mul_right (3 * N + 6) h3)
  simp only [Nat.add_mul _ _ K] at hp hk
  generalize v * (N + 3) * K = x at *
  generalize v' * (N + 3) * K = x' at *
  generalize d * (3 * N + 6) * K = y at *
  generalize d' * (3 * N + 6) * K = y' at *
  generalize L * K = z at *
  generalize B * K = z' at *
  generalize I * K = u at *
  omega

/-- **C131**, as far as it is true, for every interleaving of the memory accesses of the submitting threads and the
I/O thread, on every machine and for both kinds of queue. Let the insertion of `e` have become visible. Once the
I/O thread has made a number of further steps that depends on the options only, not counting those in which it
waits, it does not hold `e` any more, unless `fstrm_iothr_destroy` has been called: if `e` has a free
function, it has been called. The bound grows with every wait that ends before its timeout although no payload is
visible, and with every payload taken from a queue while the output is closed. -/
theorem accepted_freed_in_memory_partial (opt : IothrOptions) (hr : Reached opt)
    (hpow : ∃ k, opt.inputQueueSize = 2 ^ k) (m : Machine) (w : Writer σ) (as bs : List QAct)
    (s0 s s' : IoQ σ (opt.queueImpl m)) (hi : IoQ.init (opt.queueImpl m) ENTRY_SIZE opt w = some s0)
    (h : s0.run as = .ok s) (e : Entry) (he : e ∈ submits s.io.log) (n : Nat)
    (hb : Moves s bs n s') (hs : IoEv.shutdown ∉ s'.io.log)
    (hk : (opt.inputQueueSize * (opt.numInputQueues + 3) +
      opt.outputQueueSize * (3 * opt.numInputQueues + 6) + 1 +
      vain s bs * (opt.numInputQueues + 3) +
      tosses s bs * (3 * opt.numInputQueues + 6)) * (ENTRY_SIZE.toNat + 9) ≤ n) :
    e ∉ s'.io.queues.flatten ∧ e ∉ s'.io.outq ∧ (e.hasFree = true → e ∈ frees s'.io.log) := by
  have hle : opt.inputQueueSize * (opt.numInputQueues + 3) * (ENTRY_SIZE.toNat + 9) ≤ n :=
    Nat.le_trans (Nat.mul_le_mul_right _ (by omega)) hk
  obtain ⟨b1, b2, s1, rfl, m1, m2, m3⟩ := hb.split
    (opt.inputQueueSize * (opt.numInputQueues + 3) * (ENTRY_SIZE.toNat + 9)) hle
  obtain ⟨R, cl, hQ, hB, hl, hcb, hcap, hN⟩ := queues_bounded hr hpow hi
    (show s0.run (as ++ b1) = .ok s1 from (IoQ.run_append _ _ _ _).2 ⟨s, h, m1.run⟩)
  obtain ⟨hl', ht⟩ := hl.run hQ b2 m2.run
  have hs1 : IoEv.shutdown ∉ s1.io.log := by
    obtain ⟨x, hx⟩ := ht.log
    intro hm
    exact hs (by rw [hx]; exact List.mem_append_left _ hm)
  obtain ⟨q1, q2⟩ := accepted_leaves_in_memory opt hr hpow m w as b1 s0 s s1 hi h e he _ m1 hs1 (Nat.le_refl _)
  obtain ⟨q3, q4⟩ := accepted_leaves_in_memory opt hr hpow m w as (b1 ++ b2) s0 s s' hi h e he _ hb hs hle
  have he1 : e ∈ submits s1.io.log := by
    obtain ⟨R', _, hQ', _, hl0, _⟩ := queues_bounded hr hpow hi h
    obtain ⟨x, hx⟩ := (hl0.run hQ' b1 m1.run).2.log
    rw [hx, submits_append]; exact List.mem_append_left _ he
  have hout : e ∉ s'.io.outq := by
    intro hin
    by_cases hc : e ∈ s1.io.outq
    · obtain ⟨_, hd⟩ := hl.undestroyed ht hs
      obtain ⟨G, hG⟩ := hl.live hd
      have hp := hG.drained hQ hB m2 hcb hs hc hin
      have hv := m3 vainAt
      have hd := m3 tossAt
      change vain s1 b2 ≤ vain s (b1 ++ b2) at hv
      change tosses s1 b2 ≤ tosses s (b1 ++ b2) at hd
      have hlk : s1.looks G ≤ opt.outputQueueSize * (3 * opt.numInputQueues + 6) := by
        have hph := IoQ.phase_le s1 G
        have hlen := List.length_pos_of_mem hc
        obtain ⟨hlen2, ho1⟩ := out_bounded hr hpow hi
          (show s0.run (as ++ b1) = .ok s1 from (IoQ.run_append _ _ _ _).2 ⟨s, h, m1.run⟩)
        unfold IoQ.looks
        rw [hN] at hph ⊢
        have : (s1.io.opt.outputQueueSize - s1.io.outq.length + 1) * (3 * opt.numInputQueues + 6) ≤
            opt.outputQueueSize * (3 * opt.numInputQueues + 6) := Nat.mul_le_mul_right _ (by omega)
        rw [Nat.succ_mul] at this
        omega
      have hcur := hcb.cur
      unfold IoQ.potential at hp
      rw [hN, show ENTRY_SIZE.toNat + 8 + 1 = ENTRY_SIZE.toNat + 9 from rfl] at hp
      exact freed_arith hlk hv hd (by omega) hp hk
    · exact ht.stays_gone hl.invA he1 q1 hc hin
  refine ⟨q3, hout, fun hf => ?_⟩
  rcases q4 hf with h1 | h1
  · exact h1
  · exact absurd h1 hout

/-- Two queues of four and an output buffer of two. -/
def twoSmall : IothrOptions := (setOpt .outputQueueSize twoQueues 2).2

/-- What is shown of the state in the example: the program counter, and how far the looks at the queues are. -/
def shownSmall (s : IoQ Pipe (twoSmall.queueImpl .x86_64)) : IoPc × List Nat :=
  (s.io.pc, (show List Tso from s.qs).map fun c => c.c.left 32)

/-- The I/O thread at work: it takes the three payloads from their queue and waits; the first wait ends
without a reason. Then the clock goes on. -/
def qDrains : List QAct :=
  qTimes 148 10 ++ [.io 10 .spurious 0] ++ qOn 2060

/-- In a concrete execution the I/O thread makes the steps which the theorem asks for, and
the payloads have been freed. -/
example : Reached twoSmall ∧ twoSmall.inputQueueSize = 2 ^ 2 ∧
    (twoSmall.inputQueueSize * (twoSmall.numInputQueues + 3) +
      twoSmall.outputQueueSize * (3 * twoSmall.numInputQueues + 6) + 1 +
      1 * (twoSmall.numInputQueues + 3) + 0 * (3 * twoSmall.numInputQueues + 6)) * (ENTRY_SIZE.toNat + 9) = 2050 :=
  ⟨.set _ _ _ (.set .numInputQueues _ 2 (.set .inputQueueSize _ 4 .init)), rfl, rfl⟩

example :
    (startQueues twoSmall qThree).map (fun s => ((submits s.io.log).map Entry.data,
      s.io.queues.map List.length, vain s qDrains, tosses s qDrains, decide (2050 ≤ seenMoves shownSmall s qDrains))) =
      .ok ([[8], [9], [7]], [3, 0], 1, 0, true) ∧
    (startQueues twoSmall (qThree ++ qDrains)).map (fun s => ((frees s.io.log).map Entry.data,
      decide (IoEv.shutdown ∈ s.io.log))) = .ok ([[8], [9], [7]], false) := by
  decide +kernel

end Fstrm.Props
