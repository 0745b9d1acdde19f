import Verif.Lemmas.SockIothr
import Verif.Spec.Pipeline
import Verif.Spec.IoNet

/-!
# C119: sockets behave as the byte pipes of `Verif.Spec.Net`

The theorems about programs that talk to each other (C27, C94, C106, C111, …) are about programs
connected by byte pipes. Here it is shown that a program does over a socket what it does over pipes.
-/

set_option autoImplicit false

namespace Fstrm.Props

open Spec (Reliable SentOnly writerSide replaySide IoClient)

/-- **C119, the writer.** A program opens a writer, submits batches of frames and closes it. Whatever it does over
pipes when the bytes `y` have been delivered, it does over every socket whose peer sends `y`: every call
has the same result, and the same bytes are sent, on one connection. -/
theorem socket_writer (wopt : Option WriterOptions) (batches : List (List Bytes)) (y : Bytes) (s : Sock)
    (rs : List Res) (w : Writer Chan) (sent : Bytes) (hs : Reliable y s)
    (h : writerSide wopt batches y = .ok ((rs, w), sent)) :
    ∃ w0 w', Writer.init wopt (Rdwr.init sockOps s) = some w0 ∧
      w0.run (.opn :: (batches.map .writev ++ [.close])) = .ok (rs, w') ∧
      w'.state = w.state ∧ SentOnly sent w'.rdwr.obj := by
  obtain ⟨a, b, e1, e2, hl⟩ := Writer.init_live (OffLine.of hs) wopt
  unfold writerSide at h
  rw [e1] at h
  obtain ⟨⟨rs', w1⟩, e3, h⟩ := Exec.bind_eq_ok.1 h
  cases h
  have hops : WOp.close ∉ WOp.opn :: batches.map .writev := by
    simp
  obtain ⟨⟨rs', w'⟩, e4, rfl, hw⟩ := Writer.run_live (.opn :: batches.map .writev) hops hl _ e3
  exact ⟨b, w', e2, e4, hw.state, hw.rdwr.sent⟩

/-- **C119, the I/O thread.** Likewise for a program that submits frames to an I/O thread from any number of threads,
under every schedule of its threads: the same happens to every submitted frame and in every call of the
writer, in the same order, and the same bytes are sent, on one connection. -/
theorem socket_iothr (p : IoClient) (y : Bytes) (s : Sock) (t : Iothr Chan) (sent : Bytes) (hs : Reliable y s)
    (h : p.side y = .ok (t, sent)) :
    ∃ w0 t', Writer.init p.wopt (Rdwr.init sockOps s) = some w0 ∧
      (Iothr.init p.opt w0).run p.acts = .ok t' ∧
      t'.log = t.log ∧ t'.queues = t.queues ∧ t'.outq = t.outq ∧ t'.pc = t.pc ∧ t'.opened = t.opened ∧
      t'.destroyed = t.destroyed ∧ SentOnly sent t'.writer.rdwr.obj := by
  obtain ⟨a, b, e1, e2, hl⟩ := Writer.init_live (OffLine.of hs) p.wopt
  unfold IoClient.side at h
  rw [e1] at h
  obtain ⟨t1, e3, h⟩ := Exec.bind_eq_ok.1 h
  cases h
  have hst : a.state = .opening := by
    unfold Writer.init at e1
    split at e1
    · cases e1
    · cases e1; rfl
  obtain ⟨h1, h2⟩ := Iothr.init_live hl hst p.opt
  obtain ⟨_, e4, w', rfl, hi⟩ := Iothr.run_live p.acts h2 _ e3
  refine ⟨b, _, e2, by rw [h1]; exact e4, rfl, rfl, rfl, rfl, rfl, rfl, ?_⟩
  by_cases hp : t.pc = .exited
  · exact (hi.2 hp).1.rdwr.sent
  · exact (hi.1 hp).live.same.rdwr.sent

/-- **C119, `fstrm_replay`.** Likewise: the same exit status, the same messages, the same bytes. -/
theorem socket_replay (fuel : Nat) (ct : Bytes) (files : List ReplayFile) (y : Bytes) (s : Sock)
    (o : ReplayOut Chan) (sent : Bytes) (hs : Reliable y s) (h : replaySide fuel ct files y = .ok (o, sent)) :
    ∃ o', replay fuel ct files sockOps s = .ok o' ∧ o'.status = o.status ∧ o'.msgs = o.msgs ∧
      (o.rdwr = none ∧ o'.rdwr = none ∨ ∃ rw, o'.rdwr = some rw ∧ SentOnly sent rw.obj) := by
  unfold replaySide at h
  obtain ⟨o1, e1, h⟩ := Exec.bind_eq_ok.1 h
  cases h
  obtain ⟨o', e2, h1, h2, h3⟩ := replay_live fuel ct files (OffLine.of hs) _ e1
  refine ⟨o', e2, h1, h2, ?_⟩
  rcases h3 with h3 | ⟨a, b, ea, eb, hr⟩
  · exact Or.inl h3
  · right
    refine ⟨b, eb, ?_⟩
    rw [ea]
    exact hr.sent

/-! ## Samples -/

/-- The replies of a server: ACCEPT and FINISH, and something after them. -/
def sampleReplies : Bytes :=
  Spec.CFrame.wire ⟨.accept, [[97]]⟩ ++ (Spec.CFrame.wire ⟨.finish, []⟩ ++ [1, 2, 3])

/-- They arrive in small pieces with interruptions. -/
def sampleSocket : Sock :=
  Sock.init [sampleReplies, [5]] [true] [] [.data 1, .intr, .data 3, .data 2, .intr, .intr, .data 100] [.intr, .all, .intr] [7]

theorem sampleSocket_reliable : Reliable sampleReplies sampleSocket := by
  refine ⟨⟨rfl, rfl⟩, rfl, ?_, ?_, ?_, ?_⟩
  · decide +kernel
  · decide +kernel
  · decide +kernel
  · decide +kernel

/-- The hypotheses of `socket_writer` are met: two frames are sent. -/
example : ∃ rs w sent, writerSide (some ⟨[[97]]⟩) [[[1, 2]], [[3]]] sampleReplies = .ok ((rs, w), sent) ∧
    rs = [.success, .success, .success, .success] ∧
    sent = Spec.CFrame.wire ⟨.ready, [[97]]⟩ ++ Spec.CFrame.wire ⟨.start, [[97]]⟩ ++
      [0, 0, 0, 2, 1, 2, 0, 0, 0, 1, 3] ++ Spec.CFrame.wire ⟨.stop, []⟩ ∧ Reliable sampleReplies sampleSocket := by
  have h : (writerSide (some ⟨[[97]]⟩) [[[1, 2]], [[3]]] sampleReplies).map (fun p => (p.1.1, p.2)) =
    .ok ([.success, .success, .success, .success], Spec.CFrame.wire ⟨.ready, [[97]]⟩ ++ Spec.CFrame.wire ⟨.start, [[97]]⟩ ++
      [0, 0, 0, 2, 1, 2, 0, 0, 0, 1, 3] ++ Spec.CFrame.wire ⟨.stop, []⟩) := by decide +kernel
  cases hh : writerSide (some ⟨[[97]]⟩) [[[1, 2]], [[3]]] sampleReplies with
  | error e => rw [hh] at h; cases h
  | ok r =>
    obtain ⟨⟨rs, w⟩, sent⟩ := r
    rw [hh] at h
    simp only [Except.map, Except.ok.injEq, Prod.mk.injEq] at h
    exact ⟨rs, w, sent, rfl, h.1, h.2, sampleSocket_reliable⟩

end Fstrm.Props
