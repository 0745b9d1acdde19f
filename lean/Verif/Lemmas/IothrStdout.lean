import Verif.Lemmas.IothrFile
import Verif.Lemmas.IothrLive
import Verif.Lemmas.IothrQueues

/-!
# Lemmas: I/O threads that write to standard output

The proofs of `Lemmas/Safe.lean` for transports that must not be opened again once they have been closed.
-/

set_option autoImplicit false

namespace Fstrm

open Spec

variable {b : Bool}

/-- The stream of a file transport for writing, if there is one, has not been closed. -/
def StreamOpen (s : FileSt) : Prop := s.fp = true → s.stdClosed = false

/-- A file transport for writing whose stream, if there is one, has not been closed. -/
def DashOk (rw : Rdwr FileSt) : Prop := rw.ops = fileOps true ∧ StreamOpen rw.obj

theorem next_std (s : FileSt) : s.next.2.fp = s.fp ∧ s.next.2.stdClosed = s.stdClosed := by
  unfold FileSt.next; split <;> exact ⟨rfl, rfl⟩

theorem dash_opClose {s : FileSt} (h : StreamOpen s) :
    Safe b s.opClose (fun p => p.2.fp = false) := by
  unfold FileSt.opClose
  refine Safe.ite (fun hf => ?_) fun hf => .ok (by simpa using hf)
  refine Safe.bind (P := fun p => p.2.fp = false) ?_ ?_
  · unfold FileSt.fclose
    rw [if_neg (by simp [h hf])]
    have hn := next_std { s with fp := false, stdClosed := s.isStd }
    simp only at hn ⊢
    split <;> rename_i k s1 he <;> rw [he] at hn <;> refine .ok ?_
    · simp only; split
      · exact hn.1
      · exact hn.1
    · simp only; split
      · exact hn.1
      · exact hn.1
  · rintro ⟨ok, s1⟩ h1
    exact Safe.ite (fun _ => .ok h1) fun _ => .ok h1

theorem dash_writeLoop : ∀ (iov : List Bytes) {s : FileSt}, s.stdClosed = false →
    Safe b (FileSt.writeLoop iov s) (fun p => StreamOpen p.2)
  | [], s, h => .ok fun _ => h
  | d :: iov, s, h => by
    unfold FileSt.writeLoop
    refine Safe.bind (P := fun p => p.2.stdClosed = false) ?_ ?_
    · unfold FileSt.fwrite
      rw [if_neg (by simp [h])]
      refine Safe.ite (fun _ => .ok h) fun _ => ?_
      have hn := next_std s
      split <;> rename_i k s1 he <;> rw [he] at hn <;> exact .ok (hn.2.trans h)
    · rintro ⟨n, s1⟩ h1
      refine Safe.ite (fun _ => ?_) fun _ => dash_writeLoop iov h1
      refine Safe.bind (dash_opClose (b := b) fun _ => h1) ?_
      rintro ⟨r, s2⟩ h2
      exact .ok fun hf => by rw [h2] at hf; cases hf

theorem dash_close {rw : Rdwr FileSt} (h : DashOk rw) : Safe b rw.close (fun p => DashOk p.2) := by
  obtain ⟨ho, hs⟩ := h
  unfold Rdwr.close
  rw [ho]
  simp only [fileOps]
  refine Safe.ite (fun _ => ?_) fun _ => .ok ⟨ho, hs⟩
  refine Safe.bind (dash_opClose (b := b) hs) ?_
  rintro ⟨r, s2⟩ h2
  exact .ok ⟨rfl, fun hf => by rw [h2] at hf; cases hf⟩

theorem dash_write {rw : Rdwr FileSt} (h : DashOk rw) (iov : List Bytes) :
    Safe b (rw.write iov) (fun p => DashOk p.2) := by
  obtain ⟨ho, hs⟩ := h
  unfold Rdwr.write
  rw [ho]
  simp only [fileOps, if_true]
  refine Safe.ite (fun _ => .ok ⟨ho, hs⟩) fun _ => ?_
  refine Safe.bind (P := fun p => StreamOpen p.2) ?_ ?_
  · unfold FileSt.opWrite
    refine Safe.ite (fun _ => .ok hs) fun hf => dash_writeLoop _ (hs (by simpa using hf))
  · rintro ⟨r, s2⟩ h2
    refine Safe.ite (fun _ => ?_) fun _ => .ok ⟨rfl, h2⟩
    refine Safe.bind (dash_close (b := b) ⟨rfl, h2⟩) ?_
    rintro ⟨r, rw3⟩ h3
    exact .ok h3

theorem dash_wopen {w : Writer FileSt} (h : DashOk w.rdwr) (hc : w.rdwr.obj.isStd = true)
    (hs : w.rdwr.obj.stdClosed = false) : Safe b w.open (fun p => DashOk p.2.rdwr) := by
  unfold Writer.open
  refine Safe.ite (fun _ => .ok h) fun _ => ?_
  refine Safe.bind (P := fun p => DashOk p.2) ?_ ?_
  · unfold Rdwr.open
    rw [h.1]
    simp only [fileOps]
    refine Safe.bind (P := fun p => StreamOpen p.2) ?_ ?_
    · unfold FileSt.opOpen
      refine Safe.ite (fun _ => ?_) fun _ => .ok h.2
      exact Safe.ite (fun _ => .ok fun _ => hs) fun hn => absurd hc (by simpa using hn)
    · rintro ⟨r, s2⟩ h2
      exact Safe.ite (fun _ => .ok ⟨rfl, h2⟩) fun _ => .ok ⟨rfl, h2⟩
  · rintro ⟨res, rw⟩ h1
    simp only at h1 ⊢
    refine Safe.ite (fun _ => .ok h1) fun _ => ?_
    refine Safe.bind (P := fun p => DashOk p.2.rdwr) ?_ ?_
    · rw [if_neg (by rw [h1.1]; simp [fileOps]), openUnidirectional_eq, sendStart_eq, writeControlFrame_eq]
      refine Safe.bind (P := fun p => DashOk p.2) ?_ ?_
      · exact Safe.ite (fun _ => dash_write h1 _) fun _ => .ok h1
      · rintro ⟨res, rw⟩ h2; exact .ok h2
    · rintro ⟨res2, r2⟩ h2
      exact Safe.ite (fun _ => .ok h2) fun _ => .ok h2

theorem dash_wclose {w : Writer FileSt} (h : DashOk w.rdwr) :
    Safe b w.close (fun p => DashOk p.2.rdwr) := by
  unfold Writer.close
  refine Safe.ite (fun _ => .ok h) fun _ => ?_
  simp only
  rw [writeControl_stop]
  refine Safe.bind (dash_write h _) ?_
  rintro ⟨res, rw⟩ h1
  refine Safe.ite (fun _ => ?_) fun _ => ?_
  · refine Safe.bind (dash_close h1) ?_
    rintro ⟨_, _⟩ h2; exact .ok h2
  · rw [if_neg (by rw [h1.1]; simp [fileOps])]
    refine Safe.bind (dash_close h1) ?_
    rintro ⟨_, _⟩ h2; exact .ok h2

theorem dash_writeIov {w : Writer FileSt} (h : DashOk w.rdwr) (iov : List Bytes) (hl : iov.length ≤ 128) :
    Safe b (w.writeIov iov) (fun p => DashOk p.2.rdwr) := by
  rw [writeIov_eq _ _ hl]
  refine Safe.bind (dash_write h _) ?_
  rintro ⟨res, rw⟩ h1; exact .ok h1

theorem dash_writeIovStupid (fuel : Nat) (iov : List Bytes) {w : Writer FileSt} (h : DashOk w.rdwr)
    (hl : iov.length ≤ fuel) : Safe b (Writer.writeIovStupid fuel w iov) (fun p => DashOk p.2.rdwr) := by
  induction fuel generalizing w iov with
  | zero =>
    unfold Writer.writeIovStupid
    exact Safe.ite (fun h => by omega) fun _ => .ok h
  | succ fuel ih =>
    unfold Writer.writeIovStupid
    refine Safe.ite (fun hpos => ?_) fun _ => .ok h
    simp only [stupidMax_eq]
    refine Safe.bind (dash_writeIov h _ ?_) ?_
    · rw [List.length_take]; split <;> omega
    · rintro ⟨res, w1⟩ h1
      exact Safe.ite (fun _ => .ok h1) fun _ => ih _ h1 (by rw [List.length_drop]; split <;> omega)

theorem dash_writev {w : Writer FileSt} (h : DashOk w.rdwr) (ho : w.state = .opened) (iov : List Bytes)
    (hl : iov.length ≤ 1073741823) : Safe b (w.writev iov) (fun p => DashOk p.2.rdwr) := by
  unfold Writer.writev
  refine Safe.ite (fun _ => .ok h) fun _ => ?_
  have hm : w.maybeOpen = .ok (.success, w) := by
    unfold Writer.maybeOpen; rw [if_neg (by rw [ho]; simp)]
  rw [hm, Exec.ok_bind]
  refine Safe.ite (fun _ => .ok h) fun _ => Safe.ite (fun _ => ?_) fun _ => .ok h
  rw [if_neg (by simp only [INT_MAX]; omega)]
  refine Safe.ite (fun hle => dash_writeIov h _ ?_) fun _ => dash_writeIovStupid _ _ h (Nat.le_refl _)
  simp only [WRITER_IOVEC_SIZE] at hle; omega

theorem dash_wdestroy {w : Writer FileSt} (h : DashOk w.rdwr) : Safe b w.destroy (fun p => DashOk p.2) := by
  unfold Writer.destroy
  refine Safe.bind (P := fun p => DashOk p.2.rdwr) ?_ ?_
  · exact Safe.ite (fun _ => dash_wclose h) fun _ => .ok h
  · rintro ⟨res, w1⟩ h1
    refine Safe.bind (P := fun p => DashOk p.2) ?_ ?_
    · unfold Rdwr.destroy
      rw [h1.1]
      simp only [fileOps]
      exact .ok ⟨rfl, h1.2⟩
    · rintro ⟨_, _⟩ h2; exact .ok h2

namespace Iothr

/-- What safety needs of a state of an I/O thread that writes to standard output. -/
structure DashFine (s : Iothr FileSt) : Prop where
  good : DashOk s.writer.rdwr
  opn : s.opened = true → s.writer.state = .opened
  lim : s.outq.length ≤ s.opt.outputQueueSize
  pos : 1 ≤ s.opt.outputQueueSize
  iov : s.opt.outputQueueSize ≤ 1024

/-- The output is open, or standard output has not been closed yet. -/
def DashFirst (s : Iothr FileSt) : Prop :=
  s.opened = true ∨ (s.writer.rdwr.obj.isStd = true ∧ s.writer.rdwr.obj.stdClosed = false)

theorem DashFine.flush {s : Iothr FileSt} (h : DashFine s) :
    Safe b s.flush (fun s' => s'.outq = [] ∧ DashOk s'.writer.rdwr ∧ s'.opt = s.opt) := by
  unfold Iothr.flush
  refine Safe.ite (fun ho => ?_) fun _ => ?_
  · refine Safe.bind (dash_writev h.good (h.opn ho.1) _ ?_) ?_
    · have := h.lim; have := h.iov; simp only [List.length_map]; omega
    · rintro ⟨r, w⟩ h1
      refine Safe.ite (fun _ => ?_) fun _ => ?_
      · unfold Iothr.close
        simp only [emit, ho.1, if_true]
        refine Safe.bind (P := fun s' => DashOk s'.writer.rdwr ∧ s'.opt = s.opt) ?_ ?_
        · refine Safe.bind (dash_wclose h1) ?_
          rintro ⟨r2, w2⟩ h2
          exact .ok ⟨h2, rfl⟩
        · intro s1 h1
          rw [freeOutq_eq]
          exact .ok ⟨rfl, h1⟩
      · rw [freeOutq_eq]
        exact .ok ⟨rfl, h1, rfl⟩
  · rw [freeOutq_eq]
    exact .ok ⟨rfl, h.good, rfl⟩

theorem DashFine.close {s : Iothr FileSt} (h : DashOk s.writer.rdwr) : Safe b s.close (fun _ => True) := by
  unfold Iothr.close
  refine Safe.ite (fun ho => ?_) fun _ => .ok trivial
  refine Safe.bind (dash_wclose h) ?_
  rintro ⟨r2, w2⟩ h2
  exact .ok trivial

theorem DashFine.maybeOpen {s : Iothr FileSt} (h : DashFine s) (hf : DashFirst s) (now : Nat) :
    Safe b (s.maybeOpen now) (fun _ => True) := by
  unfold Iothr.maybeOpen
  refine Safe.ite (fun _ => .ok trivial) fun ho => Safe.ite (fun _ => .ok trivial) fun _ => ?_
  rcases hf with hf | ⟨h1, h2⟩
  · exact absurd hf (by simpa using ho)
  · refine Safe.bind (dash_wopen h.good h1 h2) ?_
    rintro ⟨r2, w2⟩ h2
    exact .ok trivial

theorem DashFine.processQueue {s : Iothr FileSt} (h : DashFine s) (i : Nat) :
    Safe b (s.processQueue i) (fun _ => True) := by
  unfold Iothr.processQueue
  split
  · rename_i e rest hq
    refine Safe.bind (P := fun _ => True) ?_ (fun s1 h1 => .ok h1)
    have h' : DashFine { s with queues := s.queues.set i rest } :=
      ⟨h.good, h.opn, h.lim, h.pos, h.iov⟩
    unfold Iothr.processEntry
    refine Safe.ite (fun _ => ?_) fun _ => ?_
    · refine Safe.bind (P := fun s' => s'.outq.length < s'.opt.outputQueueSize) ?_ ?_
      · unfold Iothr.maybeFlush
        rw [if_neg (by simpa using h'.lim)]
        refine Safe.ite (fun hc => ?_) fun hc => ?_
        · refine Safe.mono h'.flush ?_
          rintro s1 ⟨h1, h2, h3⟩
          rw [h1, h3]; exact h.pos
        · refine .ok ?_
          have := h'.pos
          omega
      · rintro s1 h2
        rw [if_neg (by omega)]
        exact .ok trivial
    · rw [freeEntry_eq]
      exact .ok trivial
  · exact .ok trivial

theorem DashFine.ioStep {s : Iothr FileSt} (h : DashFine s) (hf : s.pc = .start ∨ s.pc = .top → DashFirst s)
    (now : Nat) (wk : Wake) : Safe b (s.ioStep now wk) (fun _ => True) := by
  unfold Iothr.ioStep
  split
  · rename_i hp
    refine Safe.bind (h.maybeOpen (hf (.inl hp)) now) ?_
    intro s1 h1; exact .ok trivial
  · rename_i hp
    refine Safe.ite (fun _ => .ok trivial) fun _ => ?_
    refine Safe.bind (h.maybeOpen (hf (.inr hp)) now) ?_
    intro s1 h1; exact .ok trivial
  · refine Safe.ite (fun _ => ?_) fun _ => Safe.ite (fun _ => .ok trivial) fun _ => .ok trivial
    refine Safe.bind (h.processQueue _) ?_
    rintro ⟨n, s1⟩ h1; exact .ok trivial
  · refine Safe.ite (fun _ => ?_) fun _ => Safe.ite (fun _ => .ok trivial) fun _ => ?_
    · refine Safe.bind (h.processQueue _) ?_
      rintro ⟨n, s1⟩ h1; exact .ok trivial
    · refine Safe.bind h.flush ?_
      rintro s1 ⟨_, h1, _⟩
      refine Safe.bind (DashFine.close h1) ?_
      intro s2 h2; exact .ok trivial
  · split
    · refine Safe.ite (fun _ => ?_) fun _ => .ok trivial
      refine Safe.bind h.flush ?_
      rintro s1 ⟨h1, _⟩; exact .ok trivial
    · exact Safe.ite (fun _ => .ok trivial) fun _ => .ok trivial
    · exact .ok trivial
  · exact .ok trivial

theorem DashFine.step {s : Iothr FileSt} (h : DashFine s) (hf : s.pc = .start ∨ s.pc = .top → DashFirst s)
    (hd : s.destroyed = false) (a : IoAct) : Safe b (s.step a) (fun _ => True) := by
  cases a with
  | submit t q data f =>
    simp only [Iothr.step, submitCheck]
    rw [if_neg (by simp [hd])]
    refine Safe.ite (fun _ => .ok trivial) fun _ => ?_
    refine Safe.ite (fun _ => .ok trivial) fun _ => ?_
    split
    · exact .ok trivial
    · exact Safe.ite (fun _ => .ok trivial) fun _ => .ok trivial
  | insert t =>
    simp only [Iothr.step, submitInsert]
    split
    · exact .ok trivial
    · rw [if_neg (by simp [hd])]
      split
      · exact .ok trivial
      · refine Safe.ite (fun _ => ?_) fun _ => .ok trivial
        exact Safe.ite (fun _ => .ok trivial) fun _ => .ok trivial
  | getQueue =>
    simp only [Iothr.step, Iothr.getQueue]
    rw [if_neg (by simp [hd])]
    exact Safe.ite (fun _ => .ok trivial) fun _ => .ok trivial
  | io now wk => exact h.ioStep hf now wk
  | shutdown =>
    simp only [Iothr.step, Iothr.shutdown]
    exact Safe.ite (fun _ => .ok trivial) fun _ => .ok trivial
  | finish =>
    simp only [Iothr.step, Iothr.finish]
    refine Safe.ite (fun _ => ?_) fun _ => .ok trivial
    refine Safe.bind (dash_wdestroy h.good) ?_
    rintro ⟨r, rdwr⟩ _; exact .ok trivial

end Iothr

namespace IoQ

open Iothr

variable {Q : QImpl} {num sz : UInt32} {R : Q.S → QGhost → Prop}

theorem QLink.dash_io (hQ : Q.Correct num sz R) {s : IoQ FileSt Q} {G : Nat → QGhost} (h : s.QLink num R G)
    (hf : DashFine s.io) (h1 : s.io.pc = .start ∨ s.io.pc = .top → DashFirst s.io) (now : Nat) (wake : Wake)
    (k : Nat) : ∃ s', s.ioStep now wake k = .ok s' := by
  have other : ∃ s', (do
      let io ← s.io.ioStep now wake
      (Except.ok { s with io := io } : Exec (IoQ FileSt Q))) = .ok s' := by
    rcases hf.ioStep (b := false) h1 now wake with ⟨io, h1, _⟩ | ⟨h, _⟩
    · exact ⟨_, by rw [h1, Exec.ok_bind]⟩
    · cases h
  have hpq : ∀ i, ∃ n io, s.io.processQueue i = .ok (n, io) := by
    intro i
    rcases hf.processQueue (b := false) i with ⟨⟨n, io⟩, h1, _⟩ | ⟨h, _⟩
    · exact ⟨n, io, h1⟩
    · cases h
  unfold IoQ.ioStep
  split
  · rename_i i total hpc
    split
    · rename_i hi
      rcases h.take hQ (.work total hpc hi) k with ⟨c, e1, G', e2, _⟩ | ⟨c, G', e1, e2, e3, _, _⟩ | ⟨c, G', e1, e2⟩
      · rw [e1, Exec.ok_bind]; exact ⟨_, rfl⟩
      · rw [e1, Exec.ok_bind]; exact ⟨_, rfl⟩
      · obtain ⟨n, io, h1⟩ := hpq i
        rw [e1, h1, Exec.ok_bind, Exec.ok_bind]
        exact ⟨_, rfl⟩
    · exact other
  · rename_i i total hpc
    split
    · rename_i hi
      rcases h.take hQ (.drain total hpc hi) k with ⟨c, e1, G', e2, _⟩ | ⟨c, G', e1, e2, e3, _, _⟩ | ⟨c, G', e1, e2⟩
      · rw [e1, Exec.ok_bind]; exact ⟨_, rfl⟩
      · rw [e1, Exec.ok_bind]; exact ⟨_, rfl⟩
      · obtain ⟨n, io, h1⟩ := hpq i
        rw [e1, h1, Exec.ok_bind, Exec.ok_bind]
        exact ⟨_, rfl⟩
    · exact other
  · exact other

theorem Link.dash_step (hQ : Q.Correct num sz R) {s : IoQ FileSt Q} (h : s.Link num R) (hf : DashFine s.io)
    (h1 : s.io.pc = .start ∨ s.io.pc = .top → DashFirst s.io) (hd : s.io.destroyed = false) (a : QAct) :
    ∃ s', s.step a = .ok s' := by
  obtain ⟨G, hl⟩ := h.live hd
  cases a with
  | submit q t raw data f => obtain ⟨_, e1, _⟩ := hl.submit hQ q t raw data f; exact ⟨_, e1⟩
  | prod q t k => obtain ⟨_, e1, _⟩ := hl.prod hQ q t k; exact ⟨_, e1⟩
  | flush q b i => obtain ⟨_, e1, _⟩ := hl.flush hQ q b i; exact ⟨_, e1⟩
  | getQueue => obtain ⟨_, e1, _⟩ := hl.getQueue; exact ⟨_, e1⟩
  | shutdown => obtain ⟨_, e1, _⟩ := hl.shutdown; exact ⟨_, e1⟩
  | io now wake k => exact hl.dash_io hQ hf h1 now wake k
  | finish =>
    simp only [IoQ.step]
    rcases hl.finish hQ with e | ⟨hq, e⟩
    · exact ⟨_, e⟩
    · rcases hf.step (b := false) h1 hd .finish with ⟨io, h1, _⟩ | ⟨h, _⟩
      · simp only [Iothr.step] at h1
        exact ⟨_, by rw [e, h1, Exec.ok_bind]⟩
      · cases h

end IoQ

end Fstrm
