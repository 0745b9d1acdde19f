import Verif.Lemmas.IothrQueuesFair
import Verif.Props.IothrQueues
import Verif.Props.IothrFair

/-!
# C128: no input queue can starve another, access by access

In `no_queue_starves` the operations on the input queues are atomic. Here they are sequences of memory
accesses, as in C79 and C80. The submissions in the log are in the order in which their insertions
became visible to the I/O thread. The I/O thread may find a queue empty although a payload became
visible in it after the thread began to look.
-/

set_option autoImplicit false

namespace Fstrm.Props

open Iothr Spec

variable {σ : Type}

/-- **C128** for every interleaving of the memory accesses of the submitting threads and the I/O thread, on
every machine and for both kinds of queue: of every other queue, at most one more payload than were
ahead of `e` in its own queue, and at most `input_queue_size - 1`, became visible after `e` and
were handed to the writer before `e`. -/
theorem no_queue_starves_in_memory (opt : IothrOptions) (hr : Reached opt)
    (hpow : ∃ k, opt.inputQueueSize = 2 ^ k) (m : Machine) (w : Writer σ) (as : List QAct)
    (s0 s : IoQ σ (opt.queueImpl m)) (hi : IoQ.init (opt.queueImpl m) ENTRY_SIZE opt w = some s0)
    (h : s0.run as = .ok s) (e : Entry) (u v : List Entry)
    (hs : submits s.io.log = u ++ e :: v) (a b : List Entry) (hh : handed s.io.log = a ++ e :: b)
    (q : Nat) (hq : q ≠ e.queue) :
    ((onQueue q a).filter (· ∈ v)).length ≤ ahead s.io.log e + 1 ∧
    ((onQueue q a).filter (· ∈ v)).length ≤ opt.inputQueueSize - 1 := by
  obtain ⟨htr, num, R, hQ, _, hl0, h0⟩ := queues_link hr hpow hi h
  have hsub0 : submits s0.io.log = [] := by
    rw [h0]; unfold Iothr.init; simp only; rfl
  have none0 : ∀ r, Fair r s0.io := by
    intro r e u v q' hs
    rw [hsub0] at hs
    simp at hs
  have hF0 : s0.FLink num R := ⟨hl0, fun hd => by
    obtain ⟨G, hG⟩ := hl0.live hd
    exact ⟨G, hG, none0 _⟩, fun _ => none0 _⟩
  obtain ⟨r, hf⟩ := (hF0.run hQ as h).fair
  obtain ⟨p, h1, h2, _, h4⟩ := hf e u v q hs hq
  have := h4 a (b ++ s.io.outq) (by unfold taken; rw [hh]; simp)
  have ho : s.io.opt.inputQueueSize = opt.inputQueueSize := by
    have ho := htr.inv (P := fun x => x.opt = (Iothr.init opt w).opt) (fun _ _ h t => t.opt.trans h) rfl
    rw [ho]
    unfold Iothr.init
    simp only
    split <;> rfl
  omega

/-- Queue 0 has two payloads waiting; queue 1 is filled, and refilled while the I/O thread works. -/
def qFairActs : List QAct :=
  aSubmit 0 0 8 [8] true ++ drainStores 0 ++ aSubmit 0 0 9 [9] true ++ drainStores 0 ++
  aSubmit 1 0 1 [1] true ++ drainStores 1 ++ aSubmit 1 0 2 [2] true ++ drainStores 1 ++
  aSubmit 1 0 3 [3] true ++ drainStores 1 ++ qTimes 90 10 ++
  aSubmit 1 0 4 [4] true ++ drainStores 1 ++ [.shutdown] ++ qTimes 400 20 ++ [.finish]

/-- In a concrete execution access by access the payload `[9]` is overtaken by one later payload of
queue 1. -/
example : (startQueues twoQueues qFairActs).map
    (fun s => ((submits s.io.log).map Entry.data, (handed s.io.log).map Entry.data,
      ahead s.io.log ⟨1, 0, [9], true⟩)) =
    .ok ([[8], [9], [1], [2], [3], [4]], [[8], [1], [9], [2], [3], [4]], 1) := by
  decide +kernel

end Fstrm.Props
