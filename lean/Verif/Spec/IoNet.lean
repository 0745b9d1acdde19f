import Verif.Spec.Fleet
import Verif.Spec.IothrLog
import Verif.Model.Iothr

/-!
# A program that sends through an I/O thread, as one end of a connection

The program has any number of producer threads and one I/O thread with a bidirectional writer. The
interleaving of its threads is fixed by a schedule; when the I/O thread blocks in a call of the
writer the program stands still until more bytes are delivered to it. (What other threads do in the
meantime can be put after the blocked call in the schedule: the calls of the writer do not touch what
the threads share.)
-/

set_option autoImplicit false

namespace Fstrm.Spec

/-- A program: the options of its writer and of its I/O thread, and the steps of its threads. -/
structure IoClient where
  wopt : Option WriterOptions
  opt : IothrOptions
  acts : List IoAct

/-- What the program does, given all bytes delivered to it so far. -/
def IoClient.side (p : IoClient) : Side (Iothr Chan) := fun y =>
  match Writer.init p.wopt (Rdwr.init chanOps ⟨y, []⟩) with
  | none => .error (.abort "no writer")
  | some w => do
    let s ← (Iothr.init p.opt w).run p.acts
    .ok (s, s.writer.rdwr.obj.out)

/-- The content types the program's writer is configured with, in order. -/
def IoClient.types (p : IoClient) : List Bytes :=
  match p.wopt with
  | none => []
  | some o => o.cts

/-- The program has destroyed its I/O thread and no call of the writer has failed. -/
def Finished {σ : Type} (s : Iothr σ) : Prop :=
  s.destroyed = true ∧ ∀ c ∈ calls s.log, c.2 = .success

/-- The schedule covers the life of the I/O thread: the clock has reached the reopen interval when
the thread starts, `fstrm_iothr_destroy` returns once, at the end, and with some peer the
program gets there without a failing call. -/
structure IoClient.Whole (p : IoClient) : Prop where
  starts : ∃ pre now wk post, p.acts = pre ++ .io now wk :: post ∧
    (∀ a ∈ pre, Iothr.isIo a = false) ∧ p.opt.reopenInterval ≤ now
  once : ∃ body, p.acts = body ++ [.finish] ∧ .finish ∉ body
  ends : ∃ y s sent, p.side y = .ok (s, sent) ∧ Finished s

/-- A program that suits a server for the content type `ct` with buffers of `hw` bytes. -/
structure IoSuits (ct : Bytes) (hw : Nat) (p : IoClient) : Prop where
  whole : p.Whole
  server : ct.length ≤ 256
  types : ∀ c ∈ p.types, c.length ≤ 256
  first : ∀ c, p.types.head? = some c → c = ct
  ready : (CFrame.wire ⟨.ready, p.types⟩).length < 512
  readyFits : (CFrame.wire ⟨.ready, p.types⟩).length ≤ hw
  startFits : (CFrame.wire ⟨.start, [ct]⟩).length ≤ hw
  fits : ∀ t q d f, .submit t q (some d) f ∈ p.acts → 4 + d.length ≤ hw
  buffer : hw < 2 ^ 31

end Fstrm.Spec
