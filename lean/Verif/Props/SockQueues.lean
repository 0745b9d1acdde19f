import Verif.Lemmas.SockQueues
import Verif.Props.SockChan
import Verif.Props.QFleet

/-!
# C119 and C121: a socket as byte pipes, for programs whose threads' memory accesses are modelled
-/

set_option autoImplicit false

namespace Fstrm.Props

open Spec (Reliable SentOnly QClient QEnd)

/-- **C119, the I/O thread with its queues in memory.** The threads of a program submit frames to an I/O thread, one
memory access at a time, in every interleaving and with every delay of stores. Whatever the program does over
pipes when the bytes `y` have been delivered, it does over every socket whose peer sends `y`: the same happens
to every submitted frame and in every call of the writer, in the same order, the same submit calls have
returned success when destroy is called and when it returns, and the same bytes are sent, on one
connection. -/
theorem socket_queues (p : QClient) (y : Bytes) (s : Sock) (e : QEnd) (sent : Bytes) (hs : Reliable y s)
    (h : p.side y = .ok (e, sent)) :
    ∃ w s0 s1 s2, Writer.init p.wopt (Rdwr.init sockOps s) = some w ∧
      IoQ.init (p.opt.queueImpl p.machine) ENTRY_SIZE p.opt w = some s0 ∧
      s0.run p.before = .ok s1 ∧ s1.run (.shutdown :: p.after ++ [.finish]) = .ok s2 ∧
      s1.rets = e.done ∧ s1.wait = e.late ∧ s2.rets = e.rets ∧ s2.who = e.who ∧ s2.cur = e.busy ∧
      s2.io.log = e.io.log ∧ s2.io.queues = e.io.queues ∧ s2.io.outq = e.io.outq ∧ s2.io.pc = e.io.pc ∧
      s2.io.opened = e.io.opened ∧ s2.io.destroyed = e.io.destroyed ∧ SentOnly sent s2.io.writer.rdwr.obj := by
  obtain ⟨a, b, e1, e2, hl⟩ := Writer.init_live (OffLine.of hs) p.wopt
  unfold QClient.side at h
  rw [e1] at h
  dsimp only at h
  have hst : a.state = .opening := by
    unfold Writer.init at e1
    split at e1
    · cases e1
    · cases e1; rfl
  obtain ⟨h1, h2⟩ := Iothr.init_live hl hst p.opt
  unfold IoQ.init at h ⊢
  cases hc : (p.opt.queueImpl p.machine).create (UInt32.ofNat p.opt.inputQueueSize) ENTRY_SIZE with
  | none => rw [hc] at h; cases h
  | some q0 =>
    rw [hc] at h
    dsimp only [Option.map] at h ⊢
    obtain ⟨t1, r1, h⟩ := Exec.bind_eq_ok.1 h
    obtain ⟨t2, r2, h⟩ := Exec.bind_eq_ok.1 h
    cases h
    obtain ⟨_, r3, w1, rfl, i1⟩ := IoQ.run_live p.before h2 _ r1
    obtain ⟨_, r4, w2, rfl, i2⟩ := IoQ.run_live _ i1 _ r2
    refine ⟨b, _, t1.over w1, t2.over w2, e2, rfl, r3, r4, rfl, rfl, rfl, rfl, rfl, rfl, rfl, rfl, rfl, rfl, rfl, ?_⟩
    by_cases hp : t2.io.pc = .exited
    · exact (i2.2 hp).1.rdwr.sent
    · exact (i2.1 hp).live.same.rdwr.sent

/-- The hypotheses are met, with lock-free queues and with queues under a mutex: three frames are sent. -/
theorem socket_queues_sample (opt : IothrOptions) (t : Nat)
    (h : (opt = twoQueues ∧ t = 0) ∨ opt = twoShared ∧ t = 7) :
    ∃ e sent, (qSample opt t).side sampleReplies = .ok (e, sent) ∧ e.rets.length = 3 ∧
      sent = Spec.CFrame.wire ⟨.ready, [[97]]⟩ ++ Spec.stream (some [97]) [[1], [2, 2], [3]] ∧
      Reliable sampleReplies sampleSocket := by
  have h : ((qSample opt t).side sampleReplies).map (fun p => (p.1.rets.length, p.2)) =
      .ok (3, Spec.CFrame.wire ⟨.ready, [[97]]⟩ ++ Spec.stream (some [97]) [[1], [2, 2], [3]]) := by
    rcases h with ⟨rfl, rfl⟩ | ⟨rfl, rfl⟩ <;> decide +kernel
  cases hh : (qSample opt t).side sampleReplies with
  | error x => rw [hh] at h; cases h
  | ok r =>
    rw [hh] at h
    simp only [Except.map, Except.ok.injEq, Prod.mk.injEq] at h
    exact ⟨r.1, r.2, rfl, h.1, h.2, sampleSocket_reliable⟩

end Fstrm.Props
