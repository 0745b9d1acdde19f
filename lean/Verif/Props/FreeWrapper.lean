import Verif.Lemmas.FreeWrapper
import Verif.Props.IothrQueues

/-!
# C138: payloads from malloc, submitted with `fstrm_free_wrapper`
-/

set_option autoImplicit false

namespace Fstrm.Props

open Spec Iothr

variable {σ : Type}

theorem trs_blocks {opt : IothrOptions} {w : Writer σ} {s : Iothr σ} (h : Trs (Iothr.init opt w) s)
    (addr : Nat → Nat) (m0 : MallocBlocks) (hm : FromMalloc addr m0 s.log) :
    ∃ m, serveAll addr m0 s.log = .ok m ∧
      (∀ e ∈ submits s.log, e ∉ frees s.log → m (addr e.id) = some e.data) ∧
      (∀ a, m0 a ≠ none → m a = m0 a) ∧
      (∀ a, m a ≠ none → m0 a ≠ none ∨ ∃ e ∈ submits s.log, e ∉ frees s.log ∧ addr e.id = a) ∧
      (IoEv.destroyed ∈ s.log → m = m0) := by
  obtain ⟨f1, _, _, f4⟩ := trs_freed h
  obtain ⟨m, e1, hh⟩ := held_blocks addr m0 s.log f1 hm
  have keep : ∀ a, m0 a ≠ none → m a = m0 a := by
    intro a ha
    exact hh.rest a fun e he hq => ha (hq ▸ (hh.own e he).2.1)
  refine ⟨m, e1, ?_, keep, ?_, ?_⟩
  · intro e he hn
    cases hf : e.hasFree with
    | true => exact (hh.own e ⟨he, hf, hn⟩).1
    | false =>
      have := hh.stat e he hf
      rw [keep _ (by rw [this]; simp), this]
  · intro a ha
    by_cases h0 : ∃ e, Owned s.log e ∧ addr e.id = a
    · obtain ⟨e, he, hq⟩ := h0
      exact .inr ⟨e, he.1, he.2.2, hq⟩
    · refine .inl fun h => ha ?_
      rw [hh.rest a fun e he hq => h0 ⟨e, he, hq⟩, h]
  · intro hd
    funext a
    refine hh.rest a fun e he _ => he.2.2 ?_
    exact (f4 hd).mem_iff.2 (List.mem_filter.2 ⟨he.1, he.2.1⟩)

/-- **C138** A program takes payloads from malloc and submits them with `fstrm_free_wrapper`, or
submits objects of its own without a free function; malloc may return addresses that have been
in use before (`FromMalloc`). Then, with `m0` the blocks that are allocated at the beginning:
* `free` is called only for allocated blocks, and every write finds the bytes that were submitted
  (there is no undefined behaviour, `serveAll … = .ok m`);
* payloads that have been accepted and not freed are still there with their contents;
* other blocks of the program are left alone;
* no other block is allocated than those of the program and of payloads not freed yet;
* when destroy has returned, the program has the blocks that it had at the beginning: nothing is
  leaked. -/
theorem blocks_freed (opt : IothrOptions) (w : Writer σ) (as : List IoAct) (s : Iothr σ)
    (h : (Iothr.init opt w).run as = .ok s) (addr : Nat → Nat) (m0 : MallocBlocks)
    (hm : FromMalloc addr m0 s.log) :
    ∃ m, serveAll addr m0 s.log = .ok m ∧
      (∀ e ∈ submits s.log, e ∉ frees s.log → m (addr e.id) = some e.data) ∧
      (∀ a, m0 a ≠ none → m a = m0 a) ∧
      (∀ a, m a ≠ none → m0 a ≠ none ∨ ∃ e ∈ submits s.log, e ∉ frees s.log ∧ addr e.id = a) ∧
      (IoEv.destroyed ∈ s.log → m = m0) :=
  trs_blocks (run_trs as h) addr m0 hm

/-- **C138** The same in every interleaving of memory accesses. -/
theorem blocks_freed_in_memory (opt : IothrOptions) (hr : Reached opt)
    (hpow : ∃ k, opt.inputQueueSize = 2 ^ k) (mc : Machine) (w : Writer σ) (as : List QAct)
    (s0 s : IoQ σ (opt.queueImpl mc)) (hi : IoQ.init (opt.queueImpl mc) ENTRY_SIZE opt w = some s0)
    (h : s0.run as = .ok s) (addr : Nat → Nat) (m0 : MallocBlocks) (hm : FromMalloc addr m0 s.io.log) :
    ∃ m, serveAll addr m0 s.io.log = .ok m ∧
      (∀ e ∈ submits s.io.log, e ∉ frees s.io.log → m (addr e.id) = some e.data) ∧
      (∀ a, m0 a ≠ none → m a = m0 a) ∧
      (∀ a, m a ≠ none → m0 a ≠ none ∨ ∃ e ∈ submits s.io.log, e ∉ frees s.io.log ∧ addr e.id = a) ∧
      (IoEv.destroyed ∈ s.io.log → m = m0) := by
  obtain ⟨ht, _⟩ := queues_link hr hpow hi h
  exact trs_blocks ht addr m0 hm

/-! Non-vacuity: the executions of C37 and C80. In the first the block at 4096 is used for payload 0
and, when it has been freed, for payload 3. Payload 1 has no free function. -/

/-- Addresses for payloads 0 to 5. -/
def demoAddr (id : Nat) : Nat := [4096, 64, 8192, 4096, 8192, 12288].getD id 0

/-- The program has an object at 64 and one more block. -/
def demoBlocks : MallocBlocks := fun a => if a = 64 then some [2, 2] else if a = 512 then some [1, 2, 3] else none

example : ∃ s, (Iothr.init twoQueues pipeWriter).run (demoPre ++ .io 9 .timeout :: demoPost) = .ok s ∧
    FromMalloc demoAddr demoBlocks s.log ∧ IoEv.destroyed ∈ s.log ∧
    (submits s.log).map Entry.id = [1, 0, 3, 4, 5] ∧ (frees s.log).map Entry.id = [0, 3, 5, 4] := by
  have h : ((Iothr.init twoQueues pipeWriter).run (demoPre ++ .io 9 .timeout :: demoPost)).map
      (fun s => (checkMalloc demoAddr demoBlocks demoBlocks s.log, decide (IoEv.destroyed ∈ s.log),
        (submits s.log).map Entry.id, (frees s.log).map Entry.id)) =
      .ok (true, true, [1, 0, 3, 4, 5], [0, 3, 5, 4]) := by decide +kernel
  cases hr : (Iothr.init twoQueues pipeWriter).run (demoPre ++ .io 9 .timeout :: demoPost) with
  | error e => rw [hr] at h; cases h
  | ok s =>
    rw [hr] at h
    simp only [Except.map, Except.ok.injEq, Prod.mk.injEq, decide_eq_true_eq] at h
    exact ⟨s, rfl, fromMalloc_of_check h.1, h.2⟩

example : ∃ s0 s, IoQ.init (twoQueues.queueImpl .x86_64) ENTRY_SIZE twoQueues pipeWriter = some s0 ∧
    s0.run (qPre ++ QAct.io 9 .timeout 0 :: qMid 0 ++ qRace) = .ok s ∧
    FromMalloc (fun id => 64 * (4 ^ id)) (fun a => if a = 256 then some [2, 2] else none) s.io.log ∧
    IoEv.destroyed ∈ s.io.log ∧
    (submits s.io.log).map Entry.id = [0, 1, 2, 4] ∧ (frees s.io.log).map Entry.id = [0, 2, 4] := by
  have h : ((startQueues twoQueues (qPre ++ QAct.io 9 .timeout 0 :: qMid 0 ++ qRace)).map fun s =>
      (checkMalloc (fun id => 64 * (4 ^ id)) (fun a => if a = 256 then some [2, 2] else none)
        (fun a => if a = 256 then some [2, 2] else none) s.io.log, decide (IoEv.destroyed ∈ s.io.log),
        (submits s.io.log).map Entry.id, (frees s.io.log).map Entry.id)) =
      .ok (true, true, [0, 1, 2, 4], [0, 2, 4]) := by decide +kernel
  unfold startQueues at h
  cases hi : IoQ.init (twoQueues.queueImpl .x86_64) ENTRY_SIZE twoQueues pipeWriter with
  | none => rw [hi] at h; cases h
  | some s0 =>
    rw [hi] at h
    dsimp only at h
    cases hr : s0.run (qPre ++ QAct.io 9 .timeout 0 :: qMid 0 ++ qRace) with
    | error e => rw [hr] at h; cases h
    | ok s =>
      rw [hr] at h
      simp only [Except.map, Except.ok.injEq, Prod.mk.injEq, decide_eq_true_eq] at h
      exact ⟨s0, s, rfl, hr, fromMalloc_of_check h.1, h.2⟩

/-- What the condition on the program excludes: a block that is submitted again before it has been freed. -/
example : (((Iothr.init twoQueues pipeWriter).run (demoPre ++ .io 9 .timeout :: demoPost)).map fun s =>
    (serveAll (fun id => if id = 1 then 64 else 4096) demoBlocks s.log).isOk) = .ok false := by decide +kernel

end Fstrm.Props
