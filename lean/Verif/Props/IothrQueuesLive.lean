import Mathlib.Data.Nat.Pairing
import Verif.Lemmas.IothrQueuesLive
import Verif.Props.IothrQueues

/-!
# C84: destroy returns, whatever the threads and store buffers do

The counterpart of C44 for the I/O thread over its queues as they are in memory.
-/

set_option autoImplicit false

namespace Fstrm.Props

open Iothr Spec

variable {σ : Type}

/-- The queue chosen is correct and its calls end. -/
theorem impl_live {opt : IothrOptions} (hr : Reached opt) (hpow : ∃ k, opt.inputQueueSize = 2 ^ k)
    (m : Machine) : (UInt32.ofNat opt.inputQueueSize).toNat = opt.inputQueueSize ∧
      ∃ R, (opt.queueImpl m).Correct (UInt32.ofNat opt.inputQueueSize) ENTRY_SIZE R ∧
        ∀ B, ∃ pw cw, (opt.queueImpl m).Live R B pw cw := by
  obtain ⟨hsz, hq, hm⟩ := impl_size hr hpow
  refine ⟨hsz, ?_⟩
  exact queueImpl_cases (P := fun Q => ∃ R, Q.Correct _ ENTRY_SIZE R ∧ ∀ B, ∃ pw cw, Q.Live R B pw cw) opt m
    ⟨_, tso_correct hq hm, fun B => ⟨_, _, tso_live B⟩⟩ ⟨_, ia64_correct hq hm, fun B => ⟨_, _, ia64_live B⟩⟩
    ⟨_, mutex_correct hq hm, fun B => ⟨_, _, mutex_live B⟩⟩

/-- **C84** Take any options made by the setters in which the queue size is a power of two, a
transport whose callbacks respect their contracts, and any execution `as` in which destroy has
been called; threads may be in the middle of submit calls, and stores may still be in store
buffers. Then, along every infinite schedule `f` which is fair, everything comes to its end:
after finitely many steps the I/O thread has exited with an empty output buffer, no submit call is in
progress, nothing that was submitted before destroy is left in a queue, and the last step of
destroy can be taken; after it exactly those payloads with a free function have been freed for
which submit has returned success, once each.

Fair means: again and again a wait can time out, with the clock advancing without bound; every
thread in a call gets to perform its next access again and again; and so do buffered stores reach
memory, the oldest of a thread's in particular. Besides, clients may do anything, e.g. call submit (it fails). -/
theorem queues_shutdown_terminates (ops : Ops σ) (I : σ → Prop) (hw : Spec.WellBehaved ops I)
    (hp : Spec.Preserves ops I) (hz : Spec.NoZeroPair ops I) (obj : σ) (hI : I obj)
    (wopt : Option WriterOptions) (opt : IothrOptions) (hr : Reached opt)
    (hpow : ∃ k, opt.inputQueueSize = 2 ^ k) (m : Machine) (w : Writer σ)
    (hinit : Writer.init wopt (Rdwr.init ops obj) = some w)
    (s0 : IoQ σ (opt.queueImpl m)) (hi : IoQ.init (opt.queueImpl m) ENTRY_SIZE opt w = some s0)
    (as : List QAct) (hfin : QAct.finish ∉ as) (hshut : QAct.shutdown ∈ as)
    (f : Nat → QAct) (hnf : ∀ n, f n ≠ .finish)
    (hio : ∀ N T, ∃ n now k, N ≤ n ∧ T ≤ now ∧ f n = .io now .timeout k)
    (hprod : ∀ N q t, ∃ n k, N ≤ n ∧ f n = .prod q t k)
    (hflush : ∀ N q c, ∃ n, N ≤ n ∧ f n = .flush q c 0) :
    ∃ n s s', s0.run (as ++ QAct.first f n) = .ok s ∧
      s.io.pc = .exited ∧ s.io.outq = [] ∧ (∀ q t, s.cur q t = none) ∧
      (∀ e ∈ s.io.queues.flatten, e ∉ submits (beforeShutdown s.io.log)) ∧
      s.step .finish = .ok s' ∧ IoEv.destroyed ∈ s'.io.log ∧
      (submits s'.io.log).Perm s'.rets ∧ (frees s'.io.log).Perm (s'.rets.filter Entry.hasFree) := by
  obtain ⟨h1, R, hQ, hLB⟩ := impl_live hr hpow m
  obtain ⟨s0', h2, h3, h4⟩ := IoQ.Link.init hQ h1 w
  rw [hi] at h2; cases h2
  obtain ⟨_, _, h5, _⟩ := init_some hinit
  have hlim := reached_limits hr
  have ho : (Iothr.init opt w).opt = opt := by
    simp only [Iothr.init]
    rw [if_neg (by omega)]
  have hg : Good ops I w.rdwr := ⟨by rw [h5]; rfl, by rw [h5]; exact hI⟩
  have hf : Iothr.Fine ops I s0.io := by
    rw [h4]
    exact ⟨hg, by simp [Iothr.init], by rw [ho]; omega, by rw [ho]; exact hlim.2.2.2.1, rfl⟩
  have hfin0 : s0.Finite := by
    refine ⟨0, fun q t _ => ?_⟩
    simp only [IoQ.init, Option.map_eq_some_iff] at hi
    obtain ⟨c, _, rfl⟩ := hi
    rfl
  obtain ⟨s1, g1, g2, g3⟩ := h3.safe_run hQ hw hp hz as hf hfin
  obtain ⟨B, hB⟩ := hfin0.run as g1
  obtain ⟨pw, cw, hL⟩ := hLB B
  have hsh1 : s1.io.shutting = true := by
    obtain ⟨a1, a2, rfl⟩ := List.append_of_mem hshut
    obtain ⟨x1, e1, e2⟩ := (IoQ.run_append _ _ _ _).1 g1
    obtain ⟨x2, e3, e4⟩ := Exec.bind_eq_ok.1 e2
    obtain ⟨l1, _⟩ := h3.run hQ _ e1
    obtain ⟨l2, _⟩ := l1.step hQ e3
    refine IoQ.shutting_trs (l2.run hQ _ e4).2 l2.invA l2.invG ?_
    simp only [IoQ.step, Iothr.shutdown] at e3
    split at e3
    · rename_i hs
      cases e3; exact hs
    · obtain ⟨wk, hwk⟩ := signal_eq (({ x1.io with shutting := true }.emit .shutdown))
      rw [hwk] at e3
      cases e3; rfl
  obtain ⟨G, hl1⟩ := g2.live g3.alive
  have hlate : s1.Late (UInt32.ofNat opt.inputQueueSize) R B :=
    ⟨⟨G, hl1⟩, hsh1, fun q t ht => hB q t (Or.inl ht), fun q t hq => hB q t (Or.inr hq)⟩
  have nofin : ∀ n, QAct.finish ∉ QAct.first f n := by
    intro n hm
    obtain ⟨k, _, hk⟩ := List.mem_map.1 hm
    exact hnf k hk
  have hok : ∀ n, ∃ s', s1.run (QAct.first f n) = .ok s' := by
    intro n
    obtain ⟨s', e1, _⟩ := g2.safe_run hQ hw hp hz (QAct.first f n) g3 (nofin n)
    exact ⟨s', e1⟩
  have hfair : ∀ (kd : IoQ.Kind) N, ∃ n, N ≤ n ∧ kd.Is (f n) := by
    intro kd N
    cases kd with
    | io T => obtain ⟨n, now, k, e1, e2, e3⟩ := hio N T; exact ⟨n, e1, by rw [e3]; exact ⟨rfl, e2⟩⟩
    | prod q t => obtain ⟨n, k, e1, e2⟩ := hprod N q t; exact ⟨n, e1, by rw [e2]; exact ⟨rfl, rfl⟩⟩
    | flush q c => obtain ⟨n, e1, e2⟩ := hflush N q c; exact ⟨n, e1, by rw [e2]; exact ⟨rfl, rfl, rfl⟩⟩
  obtain ⟨n, s, k1, k2, k3, k4, k5⟩ := IoQ.Late.exits hQ hL s1 f hfair hnf hok s1 0 rfl hlate
  obtain ⟨s2, m1, m2, m3⟩ := g2.safe_run hQ hw hp hz (QAct.first f n) g3 (nofin n)
  rw [k1] at m1; cases m1
  obtain ⟨s', n1⟩ := m2.safe_finish hQ hw hp hz m3
  have hrun : s0.run (as ++ QAct.first f n) = .ok s := (IoQ.run_append _ _ _ _).2 ⟨s1, g1, k1⟩
  have hex := m2.invG.exited k3
  have hdest : IoEv.destroyed ∈ s'.io.log ∧ s'.cur = s.cur := by
    simp only [IoQ.step, IoQ.finish] at n1
    rw [if_pos ⟨k2.shut, k3, m3.alive, k4⟩] at n1
    obtain ⟨xss, _, n1⟩ := Exec.bind_eq_ok.1 n1
    split at n1
    · obtain ⟨io, n2, n1⟩ := Exec.bind_eq_ok.1 n1
      cases n1
      refine ⟨?_, rfl⟩
      unfold Iothr.finish at n2
      rw [if_pos ⟨k2.shut, k3, m3.alive⟩] at n2
      obtain ⟨⟨r, rdwr⟩, _, n2⟩ := Exec.bind_eq_ok.1 n2
      cases n2
      simp [emit]
    · cases n1
  have hall : s0.run ((as ++ QAct.first f n) ++ [.finish]) = .ok s' :=
    (IoQ.run_append _ _ _ _).2 ⟨s, hrun, by simp only [IoQ.run, n1, Exec.ok_bind]⟩
  have hend := (queues_freed_exactly_once opt hr hpow m w _ s0 s' hi hall).2.2.2 hdest.1
    (fun q t => by rw [hdest.2]; exact k5 q t)
  exact ⟨n, s, s', hrun, k3, m2.invA.exit k3, k5, hex.2, n1, hdest.1, hend.1, hend.2⟩

/-- A fair schedule: every action again and again. -/
def fairQueues (n : Nat) : QAct :=
  let x := n.unpair.1.unpair
  if x.1 = 0 then .io n .timeout 0
  else if x.1 = 1 then .prod x.2.unpair.1 x.2.unpair.2 n
  else .flush x.2.unpair.1 (decide (x.2.unpair.2 = 0)) 0

example : (∀ n, fairQueues n ≠ .finish) ∧
    (∀ N T, ∃ n now k, N ≤ n ∧ T ≤ now ∧ fairQueues n = .io now .timeout k) ∧
    (∀ N q t, ∃ n k, N ≤ n ∧ fairQueues n = .prod q t k) ∧
    (∀ N q c, ∃ n, N ≤ n ∧ fairQueues n = .flush q c 0) := by
  refine ⟨fun n => ?_, fun N T => ?_, fun N q t => ?_, fun N q c => ?_⟩
  · unfold fairQueues
    simp only
    split
    · simp
    · split <;> simp
  · refine ⟨Nat.pair (Nat.pair 0 0) (max N T), Nat.pair (Nat.pair 0 0) (max N T), 0, ?_, ?_, by
      simp only [fairQueues, Nat.unpair_pair, if_true]⟩
    · exact Nat.le_trans (Nat.le_max_left _ _) (Nat.right_le_pair _ _)
    · exact Nat.le_trans (Nat.le_max_right _ _) (Nat.right_le_pair _ _)
  · exact ⟨Nat.pair (Nat.pair 1 (Nat.pair q t)) N, _, Nat.right_le_pair _ _, by
      simp only [fairQueues, Nat.unpair_pair]; rfl⟩
  · refine ⟨Nat.pair (Nat.pair 2 (Nat.pair q (if c then 0 else 1))) N, Nat.right_le_pair _ _, ?_⟩
    simp only [fairQueues, Nat.unpair_pair]
    cases c <;> rfl

/-- An execution to which the theorem applies: destroy is called while one thread is in the middle of a
submit call and stores are under way. -/
def qLate : List QAct :=
  qPre ++ QAct.io 9 .timeout 0 :: (qMid 0).take 150 ++ [.submit 0 0 (aStruct 6) (some [6]) true, .prod 0 0 0, .prod 0 0 0,
    .prod 0 0 0, .shutdown]

example : WellBehaved (pipeOps false true) (fun _ => True) ∧
    Preserves (pipeOps false true) (fun _ => True) ∧ NoZeroPair (pipeOps false true) (fun _ => True) ∧
    QAct.finish ∉ qLate ∧ QAct.shutdown ∈ qLate ∧
    ((startQueues twoQueues qLate).map fun s => (s.io.shutting, decide (s.io.pc = .exited), decide (s.cur 0 0 = none),
      s.qs.all (twoQueues.queueImpl .x86_64).quiet)) = .ok (true, false, false, false) ∧
    ((startQueues twoShared qLate).map fun s => (s.io.shutting, decide (s.io.pc = .exited), decide (s.cur 0 0 = none),
      s.qs.all (twoShared.queueImpl .x86_64).quiet)) = .ok (true, false, false, false) :=
  ⟨pipe_wellBehaved _ _ _, pipe_preserves _ _ (fun _ => True) (fun _ _ _ => trivial),
    (fun f hf => by cases hf), by decide +kernel, by decide +kernel, by decide +kernel, by decide +kernel⟩

/-- On ia64: destroy is called while a thread waits for its stores in submit. -/
example : QAct.finish ∉ slowRun ++ [.shutdown] ∧
    ((startQueues twoQueues (slowRun ++ [.shutdown]) .ia64).map fun s => (s.io.shutting, decide (s.io.pc = .exited),
      decide (s.cur 1 0 = none), s.qs.all (twoQueues.queueImpl .ia64).quiet)) = .ok (true, false, false, true) ∧
    ((startQueues twoQueues (slowRun.take 170 ++ [.shutdown]) .ia64).map fun s => (s.io.shutting, decide (s.io.pc = .exited),
      decide (s.cur 1 0 = none), s.qs.all (twoQueues.queueImpl .ia64).quiet)) = .ok (true, false, false, false) := by
  decide +kernel

end Fstrm.Props
