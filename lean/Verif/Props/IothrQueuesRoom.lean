import Verif.Lemmas.IothrQueuesRoom
import Verif.Props.IothrQueues

/-!
# C106: a slow or absent peer cannot make the library hold more than a fixed number of payloads
-/

set_option autoImplicit false

namespace Fstrm.Props

open Iothr Spec

variable {σ : Type}

/-- **C106** At every moment of every execution, over every writer, whatever its callbacks return: among the payloads with a free function that submit has
accepted, at most `output_queue_size + num_input_queues * (input_queue_size - 1)` have not been given
to their free function. (Submissions whose call has not returned are not counted: there is at most
one for each thread.) -/
theorem accepted_bounded (opt : IothrOptions) (hr : Reached opt)
    (hpow : ∃ k, opt.inputQueueSize = 2 ^ k) (m : Machine) (w : Writer σ) (as : List QAct)
    (s0 s : IoQ σ (opt.queueImpl m)) (hi : IoQ.init (opt.queueImpl m) ENTRY_SIZE opt w = some s0)
    (h : s0.run as = .ok s) (L : List Entry) (hn : L.Nodup)
    (hL : ∀ e ∈ L, e ∈ s.rets ∧ e.hasFree = true ∧ e ∉ frees s.io.log) :
    L.length ≤ opt.outputQueueSize + opt.numInputQueues * (opt.inputQueueSize - 1) := by
  obtain ⟨hsz, hq, hm⟩ := impl_size hr hpow
  have hR : ∃ R, (opt.queueImpl m).Correct (UInt32.ofNat opt.inputQueueSize) ENTRY_SIZE R ∧
      (opt.queueImpl m).Roomy R ((UInt32.ofNat opt.inputQueueSize).toNat - 1) := by
    exact queueImpl_cases (P := fun Q => ∃ R, Q.Correct _ ENTRY_SIZE R ∧ Q.Roomy R _) opt m
      ⟨_, tso_correct hq hm, tso_roomy⟩ ⟨_, ia64_correct hq hm, ia64_roomy⟩ ⟨_, mutex_correct hq hm, mutex_roomy⟩
  obtain ⟨R, hQ, hR⟩ := hR
  obtain ⟨s1, h2, h3, h4⟩ := IoQ.Link.init hQ hsz w
  rw [hi] at h2; cases h2
  obtain ⟨h5, h6⟩ := h3.run hQ as h
  rw [h4] at h6
  have hlim := (trs_limits hr h6).1
  have hl := reached_limits hr
  have ho : (Iothr.init opt w).opt = opt := by
    simp only [Iothr.init]
    rw [if_neg (by omega)]
  have hopt : s.io.opt = opt := by
    have : ∀ {x y : Iothr σ}, Trs x y → y.opt = x.opt := by
      intro x y ht
      induction ht with
      | refl => rfl
      | snoc _ t ih => rw [t.opt, ih]
    rw [this h6, ho]
  have := h5.held hR L hn hL
  rw [hopt] at this
  omega

/-- Three threads' worth of submissions to each queue, a fourth one is refused; the I/O thread is not running. -/
def qFill : List QAct :=
  [0, 1].flatMap fun q => [1, 2, 3, 4].flatMap fun x => aSubmit q 0 x [x] true

example :
    ((startQueues twoQueues qFill).map fun s =>
      (s.rets.all Entry.hasFree, [s.rets.map Entry.id, (frees s.io.log).map Entry.id, refusals s.io.log])) =
      .ok (true, [[0, 1, 2, 4, 5, 6], [], [3, 7]]) ∧
    ((startQueues twoShared qFill).map fun s =>
      (s.rets.all Entry.hasFree, [s.rets.map Entry.id, (frees s.io.log).map Entry.id, refusals s.io.log])) =
      .ok (true, [[0, 1, 2, 4, 5, 6], [], [3, 7]]) ∧
    -- the I/O thread has taken one from each queue: there is room again
    ((startQueues twoQueues (qFill ++ drainStores 0 ++ drainStores 0 ++ drainStores 1 ++ drainStores 1 ++
        qTimes 90 9 ++ aSubmit 0 0 5 [5] true)).map fun s =>
      [s.rets.map Entry.id, s.io.outq.map Entry.id, (frees s.io.log).map Entry.id]) =
      .ok [[0, 1, 2, 4, 5, 6, 8], [0, 4], []] := by decide +kernel

end Fstrm.Props
