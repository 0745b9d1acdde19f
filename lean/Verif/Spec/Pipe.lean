import Verif.Spec.Net

/-!
# A writer and a reader connected by two pipes of limited capacity

As in `Spec/Net.lean`, but a pipe holds only so many bytes that were sent and not read yet. A side
whose pipe is full blocks in its write call until the other side has read something, and does not
read meanwhile. Bytes are moved one at a time, and only into a read call that waits for them, so the
bytes delivered to a side are exactly those it has read.
-/

set_option autoImplicit false

namespace Fstrm

/-- Reads block until all bytes asked for are there; a write blocks (`Stuck.full`) when it would
make the number of bytes sent exceed `room`, having sent what fits. Opening and closing
always work. -/
def pipeOps (room : Nat) : Ops Chan :=
  { chanOps with
    wr := some fun iov s =>
      if (s.out ++ iov.flatten).length ≤ room then .ok (.success, { s with out := s.out ++ iov.flatten })
      else .error (.full ((s.out ++ iov.flatten).take room)) }

namespace Spec

/-- The program of `writerSide` when its pipe takes `room` bytes in total. -/
def writerPipe (wopt : Option WriterOptions) (batches : List (List Bytes)) (room : Nat) :
    Side (List Res × Writer Chan) := fun y =>
  match Writer.init wopt (Rdwr.init (pipeOps room) ⟨y, []⟩) with
  | none => .error (.abort "no writer")
  | some w => do
    let (rs, w) ← w.run (.opn :: (batches.map .writev ++ [.close]))
    .ok ((rs, w), w.rdwr.obj.out)

/-- The program of `readerSide` when its pipe takes `room` bytes in total. -/
def readerPipe (ropt : Option ReaderOptions) (fuel n : Nat) (room : Nat) :
    Side (List (Option Bytes) × Option Res × Res × Reader Chan) := fun x =>
  match Reader.init ropt (Rdwr.init (pipeOps room) ⟨x, []⟩) with
  | none => .error (.abort "no reader")
  | some r => do
    let (ds, last, r) ← Reader.readLoop fuel n r
    let (res, r) ← r.close
    .ok ((ds, last, res, r), r.rdwr.obj.out)

/-- One byte is read. `cw` is the capacity of the pipe from the writer to the reader, so the writer
can have sent `cw` bytes more than the reader has read; `cr` is that of the other pipe. -/
inductive PipeStep {α β : Type} (cw cr : Nat) (W : Nat → Side α) (R : Nat → Side β) :
    Net → Net → Prop
  | toReader (x y o : Bytes) (b : UInt8) :
      x ++ [b] <+: sentBy (W (x.length + cw) y) → R (y.length + cr) x = .error (.wait o) →
      PipeStep cw cr W R ⟨x, y⟩ ⟨x ++ [b], y⟩
  | toWriter (x y o : Bytes) (b : UInt8) :
      y ++ [b] <+: sentBy (R (y.length + cr) x) → W (x.length + cw) y = .error (.wait o) →
      PipeStep cw cr W R ⟨x, y⟩ ⟨x, y ++ [b]⟩

/-- The states reachable in a given number of steps. -/
inductive PipeRun {α β : Type} (cw cr : Nat) (W : Nat → Side α) (R : Nat → Side β) :
    Nat → Net → Prop
  | start : PipeRun cw cr W R 0 ⟨[], []⟩
  | step {k : Nat} {s s' : Net} : PipeRun cw cr W R k s → PipeStep cw cr W R s s' →
      PipeRun cw cr W R (k+1) s'

/-- Nothing can move. -/
def PipeStuck {α β : Type} (cw cr : Nat) (W : Nat → Side α) (R : Nat → Side β) (s : Net) : Prop :=
  ∀ s', ¬ PipeStep cw cr W R s s'

end Spec

end Fstrm
