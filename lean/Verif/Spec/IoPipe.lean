import Verif.Spec.IoNet
import Verif.Spec.Pipe

/-! # A program that sends through an I/O thread, over a pipe of limited capacity -/

set_option autoImplicit false

namespace Fstrm.Spec

/-- The program of `IoClient.side` when its pipe takes `room` bytes in total. When the pipe is full
the I/O thread blocks in its write call, and the program stands still until there is room. -/
def IoClient.pipe (p : IoClient) (room : Nat) : Side (Iothr Chan) := fun y =>
  match Writer.init p.wopt (Rdwr.init (pipeOps room) ⟨y, []⟩) with
  | none => .error (.abort "no writer")
  | some w => do
    let s ← (Iothr.init p.opt w).run p.acts
    .ok (s, s.writer.rdwr.obj.out)

end Fstrm.Spec
